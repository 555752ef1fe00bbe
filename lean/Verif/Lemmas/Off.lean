import Verif.Lemmas.NearRead

/-!
# Machines that differ only in where they are
-/

namespace Pygcode
open Props Machine Spec

/-- The same machine up to the range visited and a displacement of at most `τ` along each axis. -/
structure Off (τ : ℚ) (a b : Machine) : Prop where
  axes : a.axes = b.axes
  ignore : a.ignoreInvalid = b.ignoreInvalid
  mode : a.mode = b.mode
  state : a.state = b.state
  unit : a.absPos.unit = b.absPos.unit
  dist : ∀ x, |a.absPos.val x - b.absPos.val x| ≤ τ

theorem Off.rfl' (a : Machine) : Off 0 a a := ⟨rfl, rfl, rfl, rfl, rfl, fun _ => by simp⟩

theorem Off.trans {σ τ : ℚ} {a b c : Machine} (h : Off σ a b) (h' : Off τ b c) : Off (σ + τ) a c :=
  ⟨h.axes.trans h'.axes, h.ignore.trans h'.ignore, h.mode.trans h'.mode, h.state.trans h'.state,
    h.unit.trans h'.unit, fun x => by
      have := abs_sub_le (a.absPos.val x) (b.absPos.val x) (c.absPos.val x)
      linarith [h.dist x, h'.dist x]⟩

theorem Off.symm {τ : ℚ} {a b : Machine} (h : Off τ a b) : Off τ b a :=
  ⟨h.axes.symm, h.ignore.symm, h.mode.symm, h.state.symm, h.unit.symm, fun x => by rw [abs_sub_comm]; exact h.dist x⟩

theorem Off.mono {σ τ : ℚ} {a b : Machine} (h : Off σ a b) (hl : σ ≤ τ) : Off τ a b :=
  ⟨h.axes, h.ignore, h.mode, h.state, h.unit, fun x => (h.dist x).trans hl⟩

/-- Outcomes: the machines, and the same exception, if any. -/
def OffRes (τ : ℚ) (r s : MRes) : Prop := Off τ r.1 s.1 ∧ r.2 = s.2

variable {τ : ℚ}

theorem Off.incremental {a b : Machine} (h : Off τ a b) : a.incremental = b.incremental := by
  unfold Machine.incremental; rw [h.mode]

theorem Off.badSys {a b : Machine} (h : Off τ a b) : a.BadSys ↔ b.BadSys := by
  unfold BadSys; rw [h.state]

theorem Off.sysOff {a b : Machine} (h : Off τ a b) : a.sysOff = b.sysOff := by
  funext x; unfold Machine.sysOff; rw [h.state]

theorem goto_off {a b : Machine} (h : Off τ a b) (v w : Axis → ℚ) (hv : ∀ x, |v x - w x| ≤ τ) :
    Off τ (a.goto v) (b.goto w) :=
  ⟨h.axes, h.ignore, h.mode, h.state, h.unit, hv⟩

theorem setPos_off {a b : Machine} (h : Off τ a b) (ha : a.WF) (hb : b.WF) (p q : Position) (hp : p.axes = a.axes)
    (hu : p.unit = a.absPos.unit) (hq : q.axes = b.axes) (hv : q.unit = b.absPos.unit)
    (hd : ∀ x, |p.val x - q.val x| ≤ τ) : OffRes τ (a.setPos p) (b.setPos q) := by
  by_cases hbad : a.BadSys
  · rw [setPos_bad a hbad, setPos_bad b (h.badSys.1 hbad)]
    exact ⟨h, rfl⟩
  · rw [setPos_ok a ha hbad p hp hu, setPos_ok b hb (fun hx => hbad (h.badSys.2 hx)) q hq hv]
    refine ⟨goto_off h _ _ ?_, rfl⟩
    intro x
    rw [h.state, h.sysOff]
    have := hd x
    rwa [show p.val x + b.state.offset.val x + b.sysOff x - (q.val x + b.state.offset.val x + b.sysOff x) =
      p.val x - q.val x by ring]

/-- Coordinates put into two positions. -/
theorem update_off (hτ : 0 ≤ τ) (cs : List (Axis × ℚ)) : ∀ (p q : Position), p.axes = q.axes →
    (∀ x, |p.val x - q.val x| ≤ τ) →
    (p.update cs).2 = (q.update cs).2 ∧ ∀ x, |(p.update cs).1.val x - (q.update cs).1.val x| ≤ τ := by
  induction cs with
  | nil => intro p q _ h; exact ⟨rfl, h⟩
  | cons c cs ih =>
    intro p q hax h
    unfold Position.update Position.set
    rw [hax]
    by_cases hc : c.1 ∈ q.axes
    · simp only [hc, if_true]
      refine ih _ _ ?_ ?_
      · first | exact hax | rfl
      · intro x
        by_cases hx : x = c.1
        · subst hx; simp [hτ]
        · simp only [ne_eq, hx, not_false_eq_true, Function.update_of_ne]; exact h x
    · simp only [hc, if_false]
      exact ⟨trivial, h⟩

theorem move_off (hτ : 0 ≤ τ) {a b : Machine} (h : Off τ a b) (ha : a.WF) (hb : b.WF) (cs : Coords) :
    OffRes τ (a.move cs) (b.move cs) := by
  by_cases hbad : a.BadSys
  · have hbad' := h.badSys.1 hbad
    unfold move
    rw [pos_bad a hbad, pos_bad b hbad', h.incremental]
    split_ifs <;> exact ⟨h, rfl⟩
  · have hpo := pos_ok a ha hbad
    have hpo' := pos_ok b hb (fun hx => hbad (h.badSys.2 hx))
    have hd : ∀ x, |(a.absPos.val x - a.sysOff x - a.state.offset.val x) -
        (b.absPos.val x - b.sysOff x - b.state.offset.val x)| ≤ τ := by
      intro x
      rw [h.state, h.sysOff]
      have := h.dist x
      rwa [show a.absPos.val x - b.sysOff x - b.state.offset.val x - (b.absPos.val x - b.sysOff x - b.state.offset.val x) =
        a.absPos.val x - b.absPos.val x by ring]
    unfold move
    rw [hpo, hpo', ← h.incremental]
    simp only [← h.axes]
    by_cases hi : a.incremental = true
    · simp only [hi, if_true]
      split_ifs with h1
      · exact ⟨h, rfl⟩
      · simp only [Position.add, Position.make, if_true]
        refine setPos_off h ha hb _ _ rfl rfl h.axes rfl ?_
        intro x
        have := hd x
        simp only [add_sub_add_right_eq_sub]
        exact this
    · simp only [hi, Bool.false_eq_true, if_false]
      split_ifs with h1 h2
      · exact ⟨h, rfl⟩
      · exact ⟨h, rfl⟩
      · set p : Position := ⟨a.axes, a.absPos.unit, fun x => a.absPos.val x - a.sysOff x - a.state.offset.val x⟩ with hp
        set q : Position := ⟨a.axes, b.absPos.unit, fun x => b.absPos.val x - b.sysOff x - b.state.offset.val x⟩ with hq
        obtain ⟨k1, k2, k3⟩ := update_keeps p (cs.filterMap (fun c => c.2.map (fun v => (c.1, v))))
        obtain ⟨j1, j2, j3⟩ := update_keeps q (cs.filterMap (fun c => c.2.map (fun v => (c.1, v))))
        obtain ⟨u1, u2⟩ := update_off hτ (cs.filterMap (fun c => c.2.map (fun v => (c.1, v)))) p q rfl hd
        generalize p.update (cs.filterMap (fun c => c.2.map (fun v => (c.1, v)))) = r at *
        generalize q.update (cs.filterMap (fun c => c.2.map (fun v => (c.1, v)))) = s at *
        obtain ⟨r, e⟩ := r
        obtain ⟨s, e'⟩ := s
        simp only at u1 u2 k1 k2 j1 j2
        subst u1
        cases e with
        | some e => exact ⟨h, rfl⟩
        | none => exact setPos_off h ha hb r s k1 k2 (j1.trans h.axes) j2 u2

theorem moves_off (hτ : 0 ≤ τ) (cs : Coords) (n : ℕ) :
    ∀ {a b : Machine}, Off τ a b → a.WF → b.WF → OffRes τ (a.moves cs n) (b.moves cs n) := by
  induction n with
  | zero => exact fun h _ _ => ⟨h, rfl⟩
  | succ n ih =>
    intro a b h ha hb
    have hm := move_off hτ h ha hb cs
    have w1 := move_wf a ha cs
    have w2 := move_wf b hb cs
    unfold moves andThen
    generalize a.move cs = r at hm w1
    generalize b.move cs = s at hm w2
    obtain ⟨r, er⟩ := r
    obtain ⟨s, es⟩ := s
    obtain ⟨h1, h2⟩ := hm
    simp only at h1 h2 w1 w2
    subst h2
    cases er with
    | none => exact ih h1 w1 w2
    | some e => exact ⟨h1, rfl⟩

theorem effect_off (hτ : 0 ≤ τ) {a b : Machine} (h : Off τ a b) (ha : a.WF) (hb : b.WF) (g : GCode) :
    OffRes τ (a.effect g) (b.effect g) := by
  unfold effect
  cases g.cls.proc with
  | nothing => exact ⟨h, rfl⟩
  | motion => rw [h.axes]; exact move_off hτ h ha hb _
  | rapid => rw [h.axes]; exact move_off hτ h ha hb _
  | cancel => exact ⟨⟨h.axes, h.ignore, by simp only [h.mode], h.state, h.unit, h.dist⟩, rfl⟩
  | canned =>
    have hc : a.cannedCoords g = b.cannedCoords g := by
      unfold cannedCoords; rw [h.axes, h.mode]
    simp only [hc]
    cases b.cannedCoords g with
    | error e => exact ⟨h, rfl⟩
    | ok cs =>
      simp only
      cases loopCount g with
      | error e => exact ⟨h, rfl⟩
      | ok n => exact moves_off hτ cs n h ha hb

theorem process_off (hτ : 0 ≤ τ) {a b : Machine} (h : Off τ a b) (ha : a.WF) (hb : b.WF) (g : GCode) (hg : GOK g) :
    OffRes τ (a.process g) (b.process g) := by
  rw [process_eq a g hg, process_eq b g hg]
  have hw : Off τ (a.withMode (setIn a.mode g)) (b.withMode (setIn b.mode g)) := by
    refine ⟨h.axes, h.ignore, ?_, ?_, h.unit, h.dist⟩
    · show setIn a.mode g = setIn b.mode g
      rw [h.mode]
    · unfold withMode; rw [h.mode, h.state]
  exact effect_off hτ hw (withMode_wf a ha _) (withMode_wf b hb _) g

theorem processAll_off (hτ : 0 ≤ τ) {gs : List GCode} (hg : ∀ g ∈ gs, GOK g) :
    ∀ {a b : Machine}, Off τ a b → a.WF → b.WF → OffRes τ (a.processAll gs) (b.processAll gs) := by
  induction gs with
  | nil => exact fun h _ _ => ⟨h, rfl⟩
  | cons g gs ih =>
    intro a b h ha hb
    have hgg := hg g (by simp)
    have hp := process_off hτ h ha hb g hgg
    have w1 := (path_process a ha g hgg).wf ha
    have w2 := (path_process b hb g hgg).wf hb
    unfold processAll andThen
    generalize a.process g = r at hp w1
    generalize b.process g = s at hp w2
    obtain ⟨r, er⟩ := r
    obtain ⟨s, es⟩ := s
    obtain ⟨h3, h4⟩ := hp
    simp only at h3 h4 w1 w2
    subst h4
    cases er with
    | none => exact ih (fun x hx => hg x (by simp [hx])) h3 w1 w2
    | some e => exact ⟨h3, rfl⟩

theorem Off.modal {a b : Machine} (h : Off τ a b) (mp : List Word) : a.modalGcode mp = b.modalGcode mp := by
  unfold modalGcode; rw [h.mode, h.ignore]

theorem gcodes_off (hτ : 0 ≤ τ) {a b : Machine} (h : Off τ a b) (ha : a.WF) (hb : b.WF) {gs : List GCode}
    (hg : ∀ g ∈ gs, GOK g) (mp : List Word) : OffRes τ (a.processGcodes gs mp) (b.processGcodes gs mp) := by
  unfold processGcodes
  rw [h.modal]
  cases hx : b.modalGcode mp with
  | error e => exact ⟨h, rfl⟩
  | ok og => exact processAll_off hτ (sort_gok hg (fun g hog => modalGcode_gok (by rw [hx, hog]))) h ha hb

theorem str_off (hτ : 0 ≤ τ) {a b : Machine} (h : Off τ a b) (ha : a.WF) (hb : b.WF) (t : List Char) :
    OffRes τ (a.processStr t) (b.processStr t) := by
  unfold processStr
  cases hl : Line.ofText t with
  | error e => exact ⟨h, rfl⟩
  | ok l => exact gcodes_off hτ h ha hb (line_block_ok hl).ok _

/-- The same lines take two machines the same way. -/
theorem lines_off (hτ : 0 ≤ τ) (ts : List (List Char)) : ∀ {a b : Machine}, Off τ a b → Sound a → Sound b →
    OffRes τ (readLines a ts) (readLines b ts) := by
  induction ts with
  | nil => exact fun h _ _ => ⟨h, rfl⟩
  | cons t ts ih =>
    intro a b h ha hb
    have h1 := str_off hτ h ha.wf hb.wf t
    have s1 := ha.str t
    have s2 := hb.str t
    unfold readLines andThen
    generalize a.processStr t = r at h1 s1
    generalize b.processStr t = s at h1 s2
    obtain ⟨r, er⟩ := r
    obtain ⟨s, es⟩ := s
    obtain ⟨h3, h4⟩ := h1
    simp only at h3 h4 s1 s2
    subst h4
    cases er with
    | none => exact ih h3 s1 s2
    | some e => exact ⟨h3, rfl⟩

end Pygcode
