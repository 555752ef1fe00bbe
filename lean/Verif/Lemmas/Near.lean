import Verif.Lemmas.Alike
import Verif.Props.ModePrint
import Verif.Lemmas.NormText

/-!
# Machines that differ only in the motion mode and the range
-/

namespace Pygcode
open Props Machine Spec

/-- Same machine, up to the range, the motion mode, and the order of the parameters of the gcodes in
the mode. -/
structure NearTo (a b : Machine) : Prop where
  axes : a.axes = b.axes
  ignore : a.ignoreInvalid = b.ignoreInvalid
  state : a.state = b.state
  abs : a.absPos = b.absPos
  mode : ∀ k, k ≠ 1 → Option.Rel SameGCode (a.mode k) (b.mode k)

theorem NearTo.refl (a : Machine) : NearTo a a :=
  ⟨rfl, rfl, rfl, rfl, fun k _ => (Alike.refl a).mode k⟩

theorem Alike.near {a b : Machine} (h : Alike a b) : NearTo a b :=
  ⟨h.axes, h.ignore, h.state, h.abs, fun k _ => h.mode k⟩

theorem SameState.near {a b : Machine} (h : SameState a b) : NearTo a b :=
  ⟨h.axes, h.ignore, h.state, h.abs, fun k _ => by rw [h.mode]; exact (Alike.refl b).mode k⟩

theorem NearTo.trans {a b c : Machine} (h : NearTo a b) (h' : NearTo b c) : NearTo a c :=
  ⟨h.axes.trans h'.axes, h.ignore.trans h'.ignore, h.state.trans h'.state, h.abs.trans h'.abs, fun k hk => by
      have h1 := h.mode k hk
      have h2 := h'.mode k hk
      generalize a.mode k = x at h1
      generalize b.mode k = y at h1 h2
      generalize c.mode k = z at h2
      cases h1 with
      | none => cases h2; exact .none
      | some s => cases h2 with
        | some s' => exact .some (s.trans' s')⟩

theorem NearTo.symm {a b : Machine} (h : NearTo a b) : NearTo b a :=
  ⟨h.axes.symm, h.ignore.symm, h.state.symm, h.abs.symm, fun k hk => by
      have h1 := h.mode k hk
      generalize a.mode k = x at h1
      generalize b.mode k = y at h1
      cases h1 with
      | none => exact .none
      | some s => exact .some s.symm'⟩

theorem NearTo.slot {a b : Machine} (h : NearTo a b) (k : ℕ) (hk : k ≠ 1) (c : Cls → Bool) :
    (match a.mode k with | some g => c g.cls | none => false) =
      (match b.mode k with | some g => c g.cls | none => false) := by
  have := h.mode k hk
  generalize a.mode k = x at this
  generalize b.mode k = y at this
  cases this with
  | none => rfl
  | some s => simp only [s.1]

theorem NearTo.incremental {a b : Machine} (h : NearTo a b) : a.incremental = b.incremental :=
  h.slot 3 (by decide) (fun c => c.isSub .incrementalDistanceMode)

theorem NearTo.pos {a b : Machine} (h : NearTo a b) : a.pos = b.pos := by
  unfold Machine.pos abs2work coordOffset
  rw [h.state, h.abs, h.axes]

/-- Outcomes that are near: the machines, and the same exception, if any. -/
def NearRes (r s : MRes) : Prop := NearTo r.1 s.1 ∧ r.2 = s.2

theorem goto_near {a b : Machine} (h : NearTo a b) (v : Axis → ℚ) : NearTo (a.goto v) (b.goto v) :=
  ⟨h.axes, h.ignore, h.state, by simp only [goto]; rw [h.axes, h.abs], h.mode⟩

theorem NearTo.badSys {a b : Machine} (h : NearTo a b) : a.BadSys ↔ b.BadSys := by
  unfold BadSys; rw [h.state]

theorem NearTo.sysOff {a b : Machine} (h : NearTo a b) : a.sysOff = b.sysOff := by
  funext x; unfold Machine.sysOff; rw [h.state]

theorem setPos_near {a b : Machine} (h : NearTo a b) (ha : a.WF) (hb : b.WF) (p : Position) (hp : p.axes = a.axes)
    (hu : p.unit = a.absPos.unit) : NearRes (a.setPos p) (b.setPos p) := by
  by_cases hbad : a.BadSys
  · rw [setPos_bad a hbad, setPos_bad b (h.badSys.1 hbad)]
    exact ⟨h, rfl⟩
  · rw [setPos_ok a ha hbad p hp hu, setPos_ok b hb (fun hx => hbad (h.badSys.2 hx)) p (hp.trans h.axes)
      (hu.trans (by rw [h.abs])), h.state, h.sysOff]
    exact ⟨goto_near h _, rfl⟩

theorem move_near {a b : Machine} (h : NearTo a b) (ha : a.WF) (hb : b.WF) {cs cs' : Coords} (hp : cs.Perm cs')
    (hn : (cs.map Prod.fst).Nodup) : NearRes (a.move cs) (b.move cs') := by
  rw [← move_perm b hp hn]
  by_cases hbad : a.BadSys
  · have hbad' := h.badSys.1 hbad
    unfold move
    rw [pos_bad a hbad, pos_bad b hbad', h.incremental]
    split_ifs <;> exact ⟨h, rfl⟩
  · have hpe := h.pos
    have hpo := pos_ok a ha hbad
    unfold move
    rw [← hpe, ← h.incremental, h.axes, hpo]
    by_cases hi : a.incremental = true
    · simp only [hi, if_true]
      split_ifs with h1
      · exact ⟨h, rfl⟩
      · simp only [Position.add, Position.make, h.axes, if_true]
        exact setPos_near h ha hb _ h.axes.symm rfl
    · simp only [hi, Bool.false_eq_true, if_false]
      split_ifs with h1 h2
      · exact ⟨h, rfl⟩
      · exact ⟨h, rfl⟩
      · set p : Position := ⟨a.axes, a.absPos.unit, fun x => a.absPos.val x - a.sysOff x - a.state.offset.val x⟩ with hp
        obtain ⟨k1, k2, k3⟩ := update_keeps p (cs.filterMap (fun c => c.2.map (fun v => (c.1, v))))
        generalize p.update (cs.filterMap (fun c => c.2.map (fun v => (c.1, v)))) = r at *
        obtain ⟨q, e⟩ := r
        cases e with
        | some e => exact ⟨h, rfl⟩
        | none => exact setPos_near h ha hb q k1 k2

theorem move_wf (m : Machine) (hm : m.WF) (cs : Coords) : (m.move cs).1.WF := by
  rcases move_cases m hm cs with ⟨v, hv, -, h⟩ | ⟨e, h⟩
  · rw [h]; exact goto_wf m hm v hv
  · rw [h]; exact hm

theorem moves_near {cs cs' : Coords} (hp : cs.Perm cs') (hn : (cs.map Prod.fst).Nodup) (n : ℕ) :
    ∀ {a b : Machine}, NearTo a b → a.WF → b.WF → NearRes (a.moves cs n) (b.moves cs' n) := by
  induction n with
  | zero => exact fun h _ _ => ⟨h, rfl⟩
  | succ n ih =>
    intro a b h ha hb
    have hm := move_near h ha hb hp hn
    have w1 := move_wf a ha cs
    have w2 := move_wf b hb cs'
    unfold moves andThen
    generalize a.move cs = r at hm w1
    generalize b.move cs' = s at hm w2
    obtain ⟨r, er⟩ := r
    obtain ⟨s, es⟩ := s
    obtain ⟨h1, h2⟩ := hm
    simp only at h1 h2 w1 w2
    subst h2
    cases er with
    | none => exact ih h1 w1 w2
    | some e => exact ⟨h1, rfl⟩

theorem canned_near {a b : Machine} (h : NearTo a b) {g g' : GCode} (hs : SameGCode g g') (hg : GOK g) :
    SameCoords (a.cannedCoords g) (b.cannedCoords g') := by
  have hp : ((coords a.axes g).map (fun c => (c.1, some c.2))).Perm
      ((coords b.axes g').map (fun c => (c.1, some c.2))) := by
    rw [h.axes]; exact (coords_perm hs _).map _
  have hn := base_nodup a.axes hg
  unfold cannedCoords
  have h10 : Option.Rel SameGCode a.mode.cannedReturn b.mode.cannedReturn := h.mode 10 (by decide)
  have hpl := h.mode 2 (by decide)
  simp only
  generalize (coords a.axes g).map (fun c => (c.1, some c.2)) = base at hp hn ⊢
  generalize (coords b.axes g').map (fun c => (c.1, some c.2)) = base' at hp ⊢
  change SameCoords (match a.mode 2 with | none => _ | some pl => _) (match b.mode 2 with | none => _ | some pl => _)
  generalize a.mode 2 = x at hpl ⊢
  generalize b.mode 2 = y at hpl ⊢
  cases hpl with
  | none => exact rfl
  | @some pl pl' s =>
    simp only
    rw [s.1, hs.get hg, hs.num hg]
    have tail : ∀ ret : Bool, SameCoords (if ret = true then _ else _) (if ret = true then _ else _) :=
      fun ret => canned_tail hp hn g' pl' ret
    generalize a.mode.cannedReturn = x at h10 ⊢
    generalize b.mode.cannedReturn = y at h10 ⊢
    cases h10 with
    | none => exact tail false
    | some s => simp only [s.1]; exact tail _

theorem withMode_near {a b : Machine} (h : NearTo a b) {g g' : GCode} (hs : SameGCode g g') :
    NearTo (a.withMode (setIn a.mode g)) (b.withMode (setIn b.mode g')) := by
  have hm : ∀ k, k ≠ 1 → Option.Rel SameGCode (setIn a.mode g k) (setIn b.mode g' k) := by
    intro k hk1
    unfold setIn
    rw [hs.1]
    cases g'.cls.group with
    | none => exact h.mode k hk1
    | some j =>
      simp only
      by_cases hk : k = j
      · subst hk
        rw [Function.update_self, Function.update_self]
        exact .some hs.copy
      · rw [Function.update_of_ne hk, Function.update_of_ne hk]
        exact h.mode k hk1
  refine ⟨h.axes, h.ignore, ?_, h.abs, hm⟩
  show State.mk _ _ _ = State.mk _ _ _
  have h12 := hm 12 (by decide)
  rw [h.state]
  congr 1
  show (match setIn a.mode g 12 with | none => _ | some g => _) = (match setIn b.mode g' 12 with | none => _ | some g => _)
  generalize setIn a.mode g 12 = x at h12
  generalize setIn b.mode g' 12 = y at h12
  cases h12 with
  | none => rfl
  | some s => simp only [s.1]

theorem effect_near {a b : Machine} (h : NearTo a b) (ha : a.WF) (hb : b.WF) {g g' : GCode} (hs : SameGCode g g')
    (hg : GOK g) : NearRes (a.effect g) (b.effect g') := by
  have hb' : ((coords a.axes g).map (fun c => (c.1, some c.2))).Perm
      ((coords b.axes g').map (fun c => (c.1, some c.2))) := by
    rw [h.axes]; exact (coords_perm hs _).map _
  have hmv := move_near h ha hb hb' (base_nodup a.axes hg)
  have hc := canned_near h hs hg
  unfold effect
  rw [hs.1]
  cases g'.cls.proc with
  | nothing => exact ⟨h, rfl⟩
  | motion => exact hmv
  | rapid => exact hmv
  | cancel =>
    refine ⟨⟨h.axes, h.ignore, h.state, h.abs, ?_⟩, rfl⟩
    intro k hk
    show Option.Rel _ (Function.update a.mode 1 none k) (Function.update b.mode 1 none k)
    rw [Function.update_of_ne hk, Function.update_of_ne hk]; exact h.mode k hk
  | canned =>
    simp only
    rw [loop_same hs hg]
    generalize a.cannedCoords g = x at hc
    generalize b.cannedCoords g' = y at hc
    cases x with
    | error e =>
      cases y with
      | error e' => cases hc; exact ⟨h, rfl⟩
      | ok cs => exact hc.elim
    | ok cs =>
      cases y with
      | error e' => exact hc.elim
      | ok cs' =>
        simp only
        cases loopCount g' with
        | error e => exact ⟨h, rfl⟩
        | ok n => exact moves_near hc.1 hc.2 n h ha hb

theorem process_near {a b : Machine} (h : NearTo a b) (ha : a.WF) (hb : b.WF) {g g' : GCode} (hs : SameGCode g g')
    (hg : GOK g) : NearRes (a.process g) (b.process g') := by
  rw [process_eq a g hg, process_eq b g' (hs.gok hg)]
  exact effect_near (withMode_near h hs) (withMode_wf a ha _) (withMode_wf b hb _) hs hg

/-- The motion mode after a gcode. -/
theorem process_slot (m : Machine) (hm : m.WF) (g : GCode) (hg : GOK g) :
    (m.process g).1.mode 1 = if g.cls.proc = .cancel then none else
      if g.cls.group = some 1 then some (copyOf g) else m.mode 1 := by
  rw [process_eq m g hg, effect_mode_eq _ (withMode_wf m hm _)]
  by_cases hp : g.cls.proc = .cancel
  · rw [if_pos hp, if_pos hp, Function.update_self]
  · rw [if_neg hp, if_neg hp]
    show setIn m.mode g 1 = _
    unfold setIn
    cases hgr : g.cls.group with
    | none => simp
    | some k =>
      by_cases hk : k = 1
      · subst hk; simp
      · simp only [Option.some.injEq, hk, if_false]
        rw [Function.update_of_ne (Ne.symm hk)]

/-! ## The motion mode -/

/-- Motion modes of the script's machine and of the reader of its output: the same, unless that of the
script's machine is empty or a gcode that gets expanded. -/
def Motions (cc : List Word) (x y : Option GCode) : Prop :=
  x = none ∨ (∃ g, x = some g ∧ g.word ∈ cc) ∨ Option.Rel SameGCode x y

/-- The script's machine and the reader. -/
structure Behind (cc : List Word) (a b : Machine) : Prop where
  near : NearTo a b
  motion : Motions cc (a.mode 1) (b.mode 1)

theorem rel_refl (x : Option GCode) : Option.Rel SameGCode x x := by
  cases x with
  | none => exact .none
  | some g => exact .some (SameGCode.rfl' g)

theorem Behind.refl (cc : List Word) (a : Machine) : Behind cc a a := ⟨.refl a, .inr (.inr (rel_refl _))⟩

theorem process_behind {cc : List Word} {a b : Machine} (h : Behind cc a b) (ha : a.WF) (hb : b.WF) {g g' : GCode}
    (hs : SameGCode g g') (hg : GOK g) :
    Behind cc (a.process g).1 (b.process g').1 ∧ (a.process g).2 = (b.process g').2 := by
  obtain ⟨h1, h2⟩ := process_near h.near ha hb hs hg
  refine ⟨⟨h1, ?_⟩, h2⟩
  rw [process_slot a ha g hg, process_slot b hb g' (hs.gok hg), hs.1]
  split_ifs
  · exact .inl rfl
  · exact .inr (.inr (.some hs.copy))
  · exact h.motion

theorem processAll_behind {cc : List Word} {gs gs' : List GCode} (hs : List.Forall₂ SameGCode gs gs')
    (hg : ∀ g ∈ gs, GOK g) : ∀ {a b : Machine}, Behind cc a b → a.WF → b.WF →
      Behind cc (a.processAll gs).1 (b.processAll gs').1 ∧ (a.processAll gs).2 = (b.processAll gs').2 := by
  induction hs with
  | nil => exact fun h _ _ => ⟨h, rfl⟩
  | @cons g g' gs gs' h1 _ ih =>
    intro a b h ha hb
    have hgg := hg g (by simp)
    have hp := process_behind h ha hb h1 hgg
    have w1 := (path_process a ha g hgg).wf ha
    have w2 := (path_process b hb g' (h1.gok hgg)).wf hb
    unfold processAll andThen
    generalize a.process g = r at hp w1
    generalize b.process g' = s at hp w2
    obtain ⟨r, er⟩ := r
    obtain ⟨s, es⟩ := s
    obtain ⟨h3, h4⟩ := hp
    simp only at h3 h4 w1 w2
    subst h4
    cases er with
    | none => exact ih (fun x hx => hg x (by simp [hx])) h3 w1 w2
    | some e => exact ⟨h3, rfl⟩

/-! ## Machines as they come from their constructor -/

/-- What holds of every machine that was not copied, whatever it has processed. -/
structure Sound (m : Machine) : Prop where
  wf : m.WF
  ok : ModeOK m.mode
  named : ModeAll Named m.mode
  noWs : ModeAll (fun g => g.ws = false) m.mode
  sync : Synced m
  dict : ∃ f, m.state.systems = .dict f

theorem process_systems (m : Machine) (hm : m.WF) (g : GCode) (hg : GOK g) :
    (m.process g).1.state.systems = m.state.systems := by
  rw [process_eq m g hg, (effect_mode _ (withMode_wf m hm _) g).2]
  rfl

theorem Sound.process {m : Machine} (h : Sound m) (g : GCode) (hg : GOK g) (hn : Named g) : Sound (m.process g).1 :=
  ⟨(path_process m h.wf g hg).wf h.wf, kept_ok.process m h.wf g hg trivial h.ok,
    kept_named.process m h.wf g hg hn h.named, kept_ws.process m h.wf g hg trivial h.noWs,
    process_synced m h.wf g hg, by rw [process_systems m h.wf g hg]; exact h.dict⟩

theorem Sound.all {gs : List GCode} (hg : ∀ g ∈ gs, GOK g) (hn : ∀ g ∈ gs, Named g) :
    ∀ {m : Machine}, Sound m → Sound (m.processAll gs).1 := by
  induction gs with
  | nil => exact fun h => h
  | cons g gs ih =>
    intro m h
    have h1 := h.process g (hg g (by simp)) (hn g (by simp))
    unfold processAll andThen
    rcases hpr : m.process g with ⟨m', _ | e⟩
    · rw [hpr] at h1
      exact ih (fun x hx => hg x (by simp [hx])) (fun x hx => hn x (by simp [hx])) h1
    · rw [hpr] at h1; exact h1

theorem Sound.gcodes {m : Machine} (h : Sound m) {gs : List GCode} (hg : ∀ g ∈ gs, GOK g) (hn : ∀ g ∈ gs, Named g)
    (mp : List Word) : Sound (m.processGcodes gs mp).1 := by
  unfold processGcodes
  cases hx : m.modalGcode mp with
  | error e => exact h
  | ok og =>
    simp only
    refine Sound.all (sort_gok hg (fun g hog => modalGcode_gok (by rw [hx, hog]))) ?_ h
    intro g hgm
    rcases List.mem_append.1 ((execSort_stable _).1.mem_iff.1 hgm) with h1 | h1
    · exact hn g h1
    · exact kept_named.modal (m := m) (mp := mp) (by rw [hx]; simp at h1; rw [h1])

theorem Sound.str {m : Machine} (h : Sound m) (t : List Char) : Sound (m.processStr t).1 := by
  unfold processStr
  cases hl : Line.ofText t with
  | error e => exact h
  | ok l =>
    have hb := line_block_ok hl
    exact h.gcodes hb.ok hb.cls _

theorem Sound.lines {m : Machine} (h : Sound m) (ts : List (List Char)) : Sound (readLines m ts).1 := by
  induction ts generalizing m with
  | nil => exact h
  | cons t ts ih =>
    have h1 := h.str t
    unfold readLines andThen
    rcases hpr : m.processStr t with ⟨m', _ | e⟩
    · rw [hpr] at h1; exact ih h1
    · rw [hpr] at h1; exact h1

end Pygcode
