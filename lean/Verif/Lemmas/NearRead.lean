import Verif.Lemmas.Near
import Verif.Props.Norm
import Verif.Props.Expand

/-!
# Reading with machines that differ only in the motion mode and the range; reading expansions
-/

namespace Pygcode
open Props Machine Spec

/-! ## Left-over words -/

theorem modalGcode_motion {a b : Machine} (hig : a.ignoreInvalid = b.ignoreInvalid)
    (h1 : Option.Rel SameGCode (a.mode 1) (b.mode 1)) (ha : ModeOK a.mode) (hn : ModeAll Named a.mode)
    (mp : List Word) (hmp : ∀ w ∈ mp, wordClass w = none) : SameModal (a.modalGcode mp) (b.modalGcode mp) := by
  have e : ∀ m : Machine, m.modalGcode mp =
      ({ newNull with mode := Function.update Mode.null 1 (m.mode 1), ignoreInvalid := m.ignoreInvalid } : Machine).modalGcode mp := by
    intro m
    unfold modalGcode
    have : Mode.motion (Function.update Mode.null 1 (m.mode 1)) = m.mode.motion := by
      show Function.update Mode.null 1 (m.mode 1) 1 = _
      rw [Function.update_self]; rfl
    rw [this]
  rw [e a, e b]
  refine modalGcode_alike ?_ ?_ ?_ mp hmp
  · refine ⟨rfl, hig, rfl, rfl, rfl, rfl, ?_⟩
    intro k
    by_cases hk : k = 1
    · subst hk
      simp only [Function.update_self]; exact h1
    · simp only [Function.update_of_ne hk]; exact .none
  · intro k g hg
    simp only at hg
    by_cases hk : k = 1
    · subst hk; rw [Function.update_self] at hg; exact ha 1 g hg
    · rw [Function.update_of_ne hk] at hg; cases hg
  · intro k g hg
    simp only at hg
    by_cases hk : k = 1
    · subst hk; rw [Function.update_self] at hg; exact hn 1 g hg
    · rw [Function.update_of_ne hk] at hg; cases hg

theorem gcodes_behind {cc : List Word} {a b : Machine} (h : Behind cc a b) (ha : Sound a) (hb : Sound b)
    {gs gs' : List GCode} (hs : List.Forall₂ SameGCode gs gs') (hg : ∀ g ∈ gs, GOK g) (mp : List Word)
    (hmp : ∀ w ∈ mp, wordClass w = none) (hm : mp = [] ∨ Option.Rel SameGCode (a.mode 1) (b.mode 1)) :
    Behind cc (a.processGcodes gs mp).1 (b.processGcodes gs' mp).1 ∧
      (a.processGcodes gs mp).2 = (b.processGcodes gs' mp).2 := by
  have hmo : SameModal (a.modalGcode mp) (b.modalGcode mp) := by
    rcases hm with rfl | hm
    · exact .none
    · exact modalGcode_motion h.near.ignore hm ha.ok ha.named mp hmp
  unfold processGcodes
  cases hx : a.modalGcode mp with
  | error e =>
    rw [hx] at hmo
    cases hy : b.modalGcode mp with
    | error e' => rw [hy] at hmo; cases hmo; exact ⟨h, rfl⟩
    | ok og => rw [hy] at hmo; exact hmo.elim
  | ok og =>
    rw [hx] at hmo
    cases hy : b.modalGcode mp with
    | error e' => rw [hy] at hmo; exact hmo.elim
    | ok og' =>
      rw [hy] at hmo
      simp only
      have hot : List.Forall₂ SameGCode og.toList og'.toList := by
        change Option.Rel SameGCode og og' at hmo
        cases hmo with
        | none => exact .nil
        | some s => exact .cons s .nil
      exact processAll_behind (execSort_same (List.rel_append hs hot))
        (sort_gok hg (fun g hog => modalGcode_gok (by rw [hx, hog]))) h ha.wf hb.wf

/-! ## Machines that differ in the range only -/

/-- Same machine, up to the range and the order of parameters in the mode. -/
structure Close (a b : Machine) : Prop where
  near : NearTo a b
  motion : Option.Rel SameGCode (a.mode 1) (b.mode 1)

theorem process_close {a b : Machine} (h : Close a b) (ha : a.WF) (hb : b.WF) {g g' : GCode}
    (hs : SameGCode g g') (hg : GOK g) :
    Close (a.process g).1 (b.process g').1 ∧ (a.process g).2 = (b.process g').2 := by
  obtain ⟨h1, h2⟩ := process_near h.near ha hb hs hg
  refine ⟨⟨h1, ?_⟩, h2⟩
  rw [process_slot a ha g hg, process_slot b hb g' (hs.gok hg), hs.1]
  split_ifs
  · exact .none
  · exact .some hs.copy
  · exact h.motion

theorem processAll_close {gs gs' : List GCode} (hs : List.Forall₂ SameGCode gs gs')
    (hg : ∀ g ∈ gs, GOK g) : ∀ {a b : Machine}, Close a b → a.WF → b.WF →
      Close (a.processAll gs).1 (b.processAll gs').1 ∧ (a.processAll gs).2 = (b.processAll gs').2 := by
  induction hs with
  | nil => exact fun h _ _ => ⟨h, rfl⟩
  | @cons g g' gs gs' h1 _ ih =>
    intro a b h ha hb
    have hgg := hg g (by simp)
    have hp := process_close h ha hb h1 hgg
    have w1 := (path_process a ha g hgg).wf ha
    have w2 := (path_process b hb g' (h1.gok hgg)).wf hb
    unfold processAll andThen
    generalize a.process g = r at hp w1
    generalize b.process g' = s at hp w2
    obtain ⟨r, er⟩ := r
    obtain ⟨s, es⟩ := s
    obtain ⟨h3, h4⟩ := hp
    simp only at h3 h4 w1 w2
    subst h4
    cases er with
    | none => exact ih (fun x hx => hg x (by simp [hx])) h3 w1 w2
    | some e => exact ⟨h3, rfl⟩

theorem forall₂_refl (gs : List GCode) : List.Forall₂ SameGCode gs gs :=
  List.forall₂_same.2 (fun g _ => SameGCode.rfl' g)

theorem str_close {a b : Machine} (h : Close a b) (ha : Sound a) (hb : Sound b) (t : List Char) :
    Close (a.processStr t).1 (b.processStr t).1 ∧ (a.processStr t).2 = (b.processStr t).2 := by
  unfold processStr
  cases hl : Line.ofText t with
  | error e => exact ⟨h, rfl⟩
  | ok l =>
    have hbl := line_block_ok hl
    simp only
    have hmo := modalGcode_motion h.near.ignore h.motion ha.ok ha.named l.block.modalParams hbl.unused
    unfold processBlock processGcodes
    cases hx : a.modalGcode l.block.modalParams with
    | error e =>
      rw [hx] at hmo
      cases hy : b.modalGcode l.block.modalParams with
      | error e' => rw [hy] at hmo; cases hmo; exact ⟨h, rfl⟩
      | ok og => rw [hy] at hmo; exact hmo.elim
    | ok og =>
      rw [hx] at hmo
      cases hy : b.modalGcode l.block.modalParams with
      | error e' => rw [hy] at hmo; exact hmo.elim
      | ok og' =>
        rw [hy] at hmo
        simp only
        have hot : List.Forall₂ SameGCode og.toList og'.toList := by
          change Option.Rel SameGCode og og' at hmo
          cases hmo with
          | none => exact .nil
          | some s => exact .cons s .nil
        exact processAll_close (execSort_same (List.rel_append (forall₂_refl _) hot))
          (sort_gok hbl.ok (fun g hog => modalGcode_gok (by rw [hx, hog]))) h ha.wf hb.wf

theorem lines_close (ts : List (List Char)) : ∀ {a b : Machine}, Close a b → Sound a → Sound b →
    Close (readLines a ts).1 (readLines b ts).1 ∧ (readLines a ts).2 = (readLines b ts).2 := by
  induction ts with
  | nil => exact fun h _ _ => ⟨h, rfl⟩
  | cons t ts ih =>
    intro a b h ha hb
    have hp := str_close h ha hb t
    have w1 := ha.str t
    have w2 := hb.str t
    unfold readLines andThen
    generalize a.processStr t = r at hp w1
    generalize b.processStr t = s at hp w2
    obtain ⟨r, er⟩ := r
    obtain ⟨s, es⟩ := s
    obtain ⟨h3, h4⟩ := hp
    simp only at h3 h4 w1 w2
    subst h4
    cases er with
    | none => exact ih h3 w1 w2
    | some e => exact ⟨h3, rfl⟩

/-- The machine with its range reduced to the current position. -/
def tight (m : Machine) : Machine :=
  { m with rangeMin := ⟨Axis.all, m.absPos.unit, m.absPos.val⟩, rangeMax := ⟨Axis.all, m.absPos.unit, m.absPos.val⟩ }

theorem tight_reader {m : Machine} (h : Sound m) : Reader (tight m) :=
  ⟨⟨h.wf.abs, h.wf.absWF, h.wf.sys, h.wf.off, h.wf.offWF, Finset.subset_univ _, Finset.subset_univ _⟩,
    h.ok, h.named, h.noWs, h.sync, h.dict, fun _ _ => ⟨le_refl _, le_refl _⟩⟩

theorem Reader.sound {m : Machine} (h : Reader m) : Sound m := ⟨h.wf, h.ok, h.named, h.noWs, h.sync, h.dict⟩

theorem tight_close (m : Machine) : Close (tight m) m :=
  ⟨⟨rfl, rfl, rfl, rfl, fun k _ => rel_refl _⟩, rel_refl _⟩

/-! ## The gcodes of an expansion -/

theorem isMove_params {c : Cls} (h : c = .rapidMove ∨ c = .linearMove) :
    c.isSub .cannedCycle = false ∧ c.group = some 1 ∧ c.proc ≠ .cancel := by
  rcases h with rfl | rfl <;> decide +kernel

/-- What the expansions consist of. -/
def Moves (gs : List GCode) : Prop := ∀ c ∈ gs, GOK c ∧ Named c ∧ IsMove c ∧ c.ws = false

theorem moves_ws {c : GCode} {z x y : ℚ} (h : c = rapidZ z ∨ c = feedZ z ∨ c = rapidXY x y) : c.ws = false := by
  rcases h with rfl | rfl | rfl <;> rfl

theorem hole_ws (fuel : ℕ) (g : GCode) (z : Except Err ℚ) (toR : Bool) (r b : ℚ) (x y : Option ℚ) :
    ∀ c ∈ (hole fuel g z toR r b x y).1, c.ws = false := by
  have hz : ∀ (p : Prop) [Decidable p] (z : ℚ), ∀ c ∈ (if p then [rapidZ z] else []), c.ws = false := by
    intro p _ z c hc
    split_ifs at hc
    · rw [List.mem_singleton] at hc; subst hc; rfl
    · cases hc
  intro c hc
  unfold hole at hc
  by_cases hrb : r < b
  · rw [if_pos hrb] at hc; cases hc
  · rw [if_neg hrb] at hc
    cases z with
    | error e => cases hc
    | ok z0 =>
      rcases mem_pre hc with hc | hc
      · exact hz _ _ c hc
      · cases x with
        | none => cases hc
        | some x =>
          cases y with
          | none => cases hc
          | some y =>
            rcases mem_pre hc with hc | hc
            · rcases List.mem_cons.1 hc with rfl | hc
              · rfl
              · exact hz _ _ c hc
            · cases hp : passDepth g r b with
              | none => rw [hp] at hc; cases hc
              | some delta =>
                rw [hp] at hc
                rcases mem_andThen hc with hc | hc
                · obtain ⟨z, rfl | rfl⟩ := drill_vertical _ r b delta fuel r c hc <;> rfl
                · by_cases hd : g.cls.isSub .drillingCycleDwell = true
                  · rw [if_pos hd] at hc; cases hc
                  · rw [if_neg hd] at hc
                    rw [List.mem_singleton] at hc
                    subst hc; rfl

theorem holes_ws (fuel : ℕ) (g : GCode) (start : Position) (incr toR : Bool) (n : ℕ) (x y : ℚ) :
    ∀ c ∈ (holes fuel g start incr toR n x y).1, c.ws = false := by
  induction n generalizing x y with
  | zero => intro c hc; cases hc
  | succ n ih =>
    intro c hc
    rw [holes] at hc
    cases incr with
    | true =>
      simp only [if_true] at hc
      cases hz : start.get .Z with
      | error e => rw [hz] at hc; cases hc
      | ok z0 =>
        rw [hz] at hc
        cases hR : g.num? 'R' <;> cases hZ : g.num? 'Z' <;> cases hX : g.num? 'X' <;> cases hY : g.num? 'Y' <;>
          simp only [hR, hZ, hX, hY] at hc
        case some.some.some.some =>
          rcases mem_andThen hc with hc | hc
          · exact hole_ws _ _ _ _ _ _ _ _ c hc
          · exact ih _ _ c hc
        all_goals cases hc
    | false =>
      simp only [Bool.false_eq_true, if_false] at hc
      cases hR : g.num? 'R' <;> cases hZ : g.num? 'Z' <;> simp only [hR, hZ] at hc
      case some.some =>
        rcases mem_andThen hc with hc | hc
        · exact hole_ws _ _ _ _ _ _ _ _ c hc
        · exact ih _ _ c hc
      all_goals cases hc

theorem rel_moves (gs : List GCode) (hgs : ∀ g ∈ gs, GOK g ∧ Named g ∧ IsMove g) (s : Status)
    {ax : Finset Axis} {w : Axis → ℚ} {m : Machine} (hm : Ready m ax false w) : Moves (abs2relLoop m gs s).1 := by
  induction gs generalizing w m with
  | nil => intro c hc; cases hc
  | cons g gs ih =>
    obtain ⟨hg, hn, hmv⟩ := hgs g List.mem_cons_self
    obtain ⟨m', -, hm', hone⟩ := abs2relOne_move hm g hg hn hmv
    unfold abs2relLoop
    rw [hone]
    intro c hc
    rcases mem_pre hc with hc | hc
    · split_ifs at hc
      · cases hc
      · rw [List.mem_singleton] at hc
        subst hc
        exact ⟨relMove_gok ax g hmv _ _, hn, hmv, rfl⟩
    · exact ih (fun x hx => hgs x (List.mem_cons_of_mem _ hx)) hm' c hc

theorem simplify_moves (fuel : ℕ) (g : GCode) (hg : IsCycle g) (start : Position) (hw : start.WF) (plane : Cls)
    (incr toR : Bool) : Moves (simplify fuel g start plane incr toR start.axes).1 := by
  unfold simplify
  split_ifs
  · intro c hc; cases hc
  · intro c hc; cases hc
  · obtain ⟨a, ha1, ha⟩ := abs2rel_machine start.axes start rfl hw
    unfold abs2rel
    rw [ha1]
    refine rel_moves _ ?_ _ ha
    rw [inner_eq fuel g hg]
    exact holes_moves _ _ _ _ _ _ _ _
  · rw [inner_eq fuel g hg]
    intro c hc
    obtain ⟨h1, h2, h3⟩ := holes_moves _ _ _ _ _ _ _ _ c hc
    exact ⟨h1, h2, h3, holes_ws _ _ _ _ _ _ _ _ c hc⟩

/-! ## Where they lead -/

/-- What no gcode changes. -/
def frozen (m : Machine) : Finset Axis × Bool × LUnit := (m.axes, m.ignoreInvalid, m.absPos.unit)

theorem move_frozen (m : Machine) (hm : m.WF) (cs : Coords) : frozen (m.move cs).1 = frozen m := by
  rcases move_cases m hm cs with ⟨v, -, -, h⟩ | ⟨e, h⟩ <;> rw [h]
  rfl

theorem moves_frozen (cs : Coords) (n : ℕ) : ∀ (m : Machine), m.WF → frozen (m.moves cs n).1 = frozen m := by
  induction n with
  | zero => exact fun _ _ => rfl
  | succ n ih =>
    intro m hm
    have h1 := move_frozen m hm cs
    have h2 := move_wf m hm cs
    unfold moves andThen
    generalize m.move cs = r at h1 h2
    obtain ⟨r, _ | e⟩ := r
    · exact (ih r h2).trans h1
    · exact h1

theorem process_frozen (m : Machine) (hm : m.WF) (g : GCode) (hg : GOK g) :
    frozen (m.process g).1 = frozen m := by
  rw [process_eq m g hg]
  have hw := withMode_wf m hm (setIn m.mode g)
  have : frozen (m.withMode (setIn m.mode g)) = frozen m := rfl
  rw [← this]
  unfold effect
  cases g.cls.proc with
  | nothing => rfl
  | motion => exact move_frozen _ hw _
  | rapid => exact move_frozen _ hw _
  | cancel => rfl
  | canned =>
    simp only
    cases (m.withMode (setIn m.mode g)).cannedCoords g with
    | error e => rfl
    | ok cs =>
      simp only
      cases loopCount g with
      | error e => rfl
      | ok n => exact moves_frozen cs n _ hw

/-- What a motion gcode leaves unchanged. -/
structure Stays (a b : Machine) : Prop where
  axes : a.axes = b.axes
  ignore : a.ignoreInvalid = b.ignoreInvalid
  state : a.state = b.state
  unit : a.absPos.unit = b.absPos.unit
  mode : ∀ k, k ≠ 1 → a.mode k = b.mode k

theorem process_stays (m : Machine) (hm : m.WF) (hs : Synced m) (g : GCode) (hg : GOK g) (hgr : g.cls.group = some 1) :
    Stays (m.process g).1 m := by
  have hmo := process_frozen m hm g hg
  refine ⟨congrArg (fun x => x.1) hmo, congrArg (fun x => x.2.1) hmo, ?_, congrArg (fun x => x.2.2) hmo, ?_⟩
  · rw [process_eq m g hg, (effect_mode _ (withMode_wf m hm _) g).2]
    have := withMode_motion m hs (some (copyOf g))
    rw [setIn_motion m.mode g hgr]
    rw [this]
  · intro k hk
    rw [process_eq m g hg, effect_mode_eq _ (withMode_wf m hm _)]
    split_ifs
    · rw [Function.update_of_ne hk]
      show setIn m.mode g k = _
      rw [setIn_motion m.mode g hgr, Function.update_of_ne hk]
    · show setIn m.mode g k = _
      rw [setIn_motion m.mode g hgr, Function.update_of_ne hk]

theorem Stays.trans {a b c : Machine} (h : Stays a b) (h' : Stays b c) : Stays a c :=
  ⟨h.axes.trans h'.axes, h.ignore.trans h'.ignore, h.state.trans h'.state, h.unit.trans h'.unit,
    fun k hk => (h.mode k hk).trans (h'.mode k hk)⟩

theorem processAll_stays {gs : List GCode} (hg : ∀ g ∈ gs, GOK g) (hgr : ∀ g ∈ gs, g.cls.group = some 1) :
    ∀ {m : Machine}, m.WF → Synced m → Stays (m.processAll gs).1 m := by
  induction gs with
  | nil => exact fun _ _ => ⟨rfl, rfl, rfl, rfl, fun _ _ => rfl⟩
  | cons g gs ih =>
    intro m hm hs
    have h1 := process_stays m hm hs g (hg g (by simp)) (hgr g (by simp))
    have h2 := (path_process m hm g (hg g (by simp))).wf hm
    have h3 := process_synced m hm g (hg g (by simp))
    unfold processAll andThen
    generalize m.process g = r at h1 h2 h3
    obtain ⟨r, _ | e⟩ := r
    · exact (ih (fun x hx => hg x (by simp [hx])) (fun x hx => hgr x (by simp [hx])) h2 h3).trans h1
    · exact h1

/-- The circumstances in which an expansion without retract mode does what the cycle does. -/
structure Expandable (m : Machine) (g : GCode) : Prop where
  plane : m.mode.plane ≠ none
  toStart : ¬ ReturnsToR m.mode
  count : 1 ≤ reps g
  others : ∀ a ∈ m.axes, a = .U ∨ a = .V ∨ a = .W → g.num? a.letter = none

theorem xy_table (c : Cls) (h : c.isSub .selectXYPlane = true) : c = .selectXYPlane := by
  have := Cls.forall_of_all (p := fun c => !(c.isSub .selectXYPlane) || c == .selectXYPlane) (by decide +kernel) c
  simpa [h] using this

/-- The expansion and the cycle. -/
theorem expansion_near (fuel : ℕ) {m : Machine} (hm : Sound m) (hax : xyz ⊆ m.axes) (g : GCode) (hg : IsCycle g)
    (hok : GOK g) (he : Expandable m g) (p : Position) (hp : m.pos = .ok p) (plane : Cls)
    (hpl : plane = (match m.mode.plane with | none => .selectXYPlane | some pl => pl.cls)) (out : List GCode)
    (h : simplify fuel g p plane m.incremental false m.axes = (out, .done)) :
    ∃ m₁ m₂, m.processAll out = (m₁, none) ∧ m.process g = (m₂, none) ∧ NearTo m₂ m₁ ∧ Moves out := by
  obtain ⟨pl, hplane⟩ := Option.ne_none_iff_exists'.1 he.plane
  rw [hplane] at hpl
  simp only at hpl
  subst hpl
  have hbs := not_badSys hm.dict
  have hxy : pl.cls = .selectXYPlane := by
    apply xy_table
    by_contra hne
    unfold simplify at h
    rw [if_neg (by rw [hg.1]; simp), if_pos (by simpa using hne)] at h
    cases h
  obtain ⟨m₁, m₂, p₁, p₂, h1, h2, h3, h4, h5⟩ := C49_same_end fuel g hg hok m hm.wf hbs hm.sync hax p hp pl hplane hxy
    false (by simp [he.toStart]) out h he.count (.inl rfl) he.others
  have hpo := hp
  rw [pos_ok m hm.wf hbs] at hpo
  have hpax : p.axes = m.axes := by rw [← Except.ok.inj hpo]
  have hpwf : p.WF := by
    intro a ha
    rw [← Except.ok.inj hpo]
    rw [hpax] at ha
    simp [abs_outside m hm.wf a ha, off_outside m hm.wf a ha, sysOff_outside m hm.wf a ha]
  have hmv : Moves out := by
    have := simplify_moves fuel g hg p hpwf pl.cls m.incremental false
    rw [hpax, h] at this
    exact this
  have s1 := processAll_stays (m := m) (fun c hc => (hmv c hc).1) (fun c hc => (isMove_params (hmv c hc).2.2.1).2.1)
    hm.wf hm.sync
  have s2 := process_stays m hm.wf hm.sync g hok (moving_group _ (.inr (.inr (cycle_table _ hg.1 hg.2).1)))
  have w1 := (Sound.all (fun c hc => (hmv c hc).1) (fun c hc => (hmv c hc).2.1) hm).wf
  have w2 := (path_process m hm.wf g hok).wf hm.wf
  rw [h1] at s1 w1
  rw [h2] at s2 w2
  simp only at s1 s2 w1 w2
  refine ⟨m₁, m₂, h1, h2, ⟨s2.axes.trans s1.axes.symm, s2.ignore.trans s1.ignore.symm, s2.state.trans s1.state.symm, ?_,
    fun k hk => by rw [s2.mode k hk, s1.mode k hk]; exact rel_refl _⟩, hmv⟩
  have hst : m₂.state = m₁.state := s2.state.trans s1.state.symm
  have hb1 : ¬ m₁.BadSys := by unfold BadSys; rw [s1.state]; exact hbs
  have hb2 : ¬ m₂.BadSys := by unfold BadSys; rw [s2.state]; exact hbs
  rw [pos_ok m₁ w1 hb1] at h3
  rw [pos_ok m₂ w2 hb2] at h4
  have hv : m₂.absPos.val = m₁.absPos.val := by
    funext a
    by_cases ha : a ∈ m.axes
    · have := h5 a ha
      rw [← Except.ok.inj h3, ← Except.ok.inj h4] at this
      simp only [Machine.sysOff, hst] at this
      linarith
    · rw [abs_outside m₁ w1 a (s1.axes ▸ ha), abs_outside m₂ w2 a (s2.axes ▸ ha)]
  have hx : m₂.absPos.axes = m₁.absPos.axes := by rw [w2.abs, w1.abs, s2.axes, s1.axes]
  have hu : m₂.absPos.unit = m₁.absPos.unit := s2.unit.trans s1.unit.symm
  generalize m₂.absPos = q₂ at hv hx hu
  generalize m₁.absPos = q₁ at hv hx hu
  obtain ⟨x, u, v⟩ := q₁
  obtain ⟨x', u', v'⟩ := q₂
  simp only at hv hx hu
  rw [hv, hx, hu]

/-! ## Reading what is printed for an expansion -/

theorem Moves.plainCode {gs : List GCode} (h : Moves gs) (hp : ∀ c ∈ gs, ∀ w ∈ c.word :: c.params, PlainWord w) :
    ∀ c ∈ gs, PlainCode c :=
  fun c hc => ⟨(h c hc).1, (h c hc).2.1, (h c hc).2.2.2, hp c hc, (isMove_params (h c hc).2.2.1).1⟩

/-- Lines that only show gcodes. -/
theorem read_lines_plain (m : Machine) (gs : List GCode) (h : ∀ g ∈ gs, PlainCode g) :
    readLines m (gs.map GCode.str) = m.processAll (gs.map canon) := by
  induction gs generalizing m with
  | nil => rfl
  | cons g gs ih =>
    rw [List.map_cons, List.map_cons]
    unfold readLines processAll
    rw [read_plain m g (h g (by simp))]
    congr 1
    funext m'
    exact ih m' (fun x hx => h x (by simp [hx]))

/-- Without blanks, the text printed for a gcode with a blanked word is that of its parameters. -/
theorem blanked_text (o : NormOpts) (hr : o.rmGcodes = []) (g : GCode) (h : PlainCode g) (hw : o.rmWhitespace = true) :
    o.lineText [{ g with ws := true }] [] none none = o.lineText [] g.sortedParams none none := by
  have hpl : ∀ w ∈ g.sortedParams, PlainWord w := fun w hw =>
    h.words w (List.mem_cons_of_mem _ ((sortedParams_perm g).mem_iff.1 hw))
  have hkey : ∀ ws : List Word, (∀ w ∈ ws, PlainWord w) →
      (ws.flatMap (fun w => ' ' :: w.str)).filter (fun x => !isSpace x) = (ws.map Word.str).flatten := by
    intro ws hws
    induction ws with
    | nil => rfl
    | cons w ws ih =>
      rw [List.flatMap_cons, List.filter_append, ih (fun x hx => hws x (by simp [hx])), List.map_cons,
        List.flatten_cons]
      congr 1
      rw [List.filter_cons_of_neg (by decide), List.filter_eq_self]
      intro x hx
      rw [plain_str_no_blank (hws w (by simp)) x hx]; rfl
  have hrep : ∀ n, (List.replicate n ' ').filter (fun x => !isSpace x) = [] := by
    intro n
    rw [List.filter_eq_nil_iff]
    intro x hx
    rw [List.eq_of_mem_replicate hx]; decide
  unfold NormOpts.lineText
  simp only [hr, if_true, hw, List.map_nil, List.nil_append, List.map_cons, List.append_nil, joinWith]
  rw [squeeze_words _ hpl]
  have : { g with ws := true }.str =
    List.replicate g.word.str.length ' ' ++ g.sortedParams.flatMap (fun w => ' ' :: w.str) := rfl
  rw [this, List.filter_append, hrep, List.nil_append, hkey _ hpl]

/-- The text printed for a gcode, with a blanked word or not, reads as the gcode's own text. -/
theorem read_written (o : NormOpts) (hr : o.rmGcodes = []) (m : Machine) (g : GCode) (h : PlainCode g)
    (hgr : g.cls.group = some 1) (b : Bool) :
    m.processStr (o.lineText [{ g with ws := b }] [] none none) = m.processStr { g with ws := b }.str := by
  have hne : { g with ws := b }.str ≠ [] := by
    cases b <;> simp [GCode.str, Word.str]
  by_cases hw : o.rmWhitespace = true
  · cases b with
    | false =>
      have hg : ({ g with ws := false } : GCode) = g := by
        have := h.noWs
        obtain ⟨c, w, p, s⟩ := g
        simp only at this
        subst this; rfl
      rw [hg, read_plain m g h]
      have := lineText_reread o hr [g] [] none none (by simpa using (show wordClass g.word = some g.cls from h.named))
        (by simpa using h.gok) (List.pairwise_singleton _ _) (by simpa using h.noWs) (by simp) (by simp) (by
          intro w hw
          simp only [List.flatMap_cons, List.flatMap_nil, List.append_nil] at hw
          exact h.words w hw) (single_conflict g) (by split_ifs <;> trivial) (by simp) (.inl rfl)
      unfold processStr
      rw [this]
      simp only [processBlock, List.map_cons, List.map_nil]
      rw [processGcodes_sorted, execSort_single, processAll_one]
    | true =>
      rw [read_blanked m g h hgr]
      have hmem : ∀ w ∈ g.sortedParams, w ∈ g.params := fun w hw => (sortedParams_perm g).mem_iff.1 hw
      have hpl : ∀ w ∈ g.sortedParams, PlainWord w := fun w hw => h.words w (List.mem_cons_of_mem _ (hmem w hw))
      have hnone : ∀ w ∈ g.sortedParams, wordClass w = none := fun w hw =>
        wordClass_param g.cls h.notCanned hgr w (h.gok.2 w (hmem w hw))
      have e1 := blanked_text o hr g h hw
      have := lineText_reread o hr [] g.sortedParams none none (by simp) (by simp) (by simp [Ordered]) (by simp) hnone
        (by simp) (by simpa using hpl) (short_conflict [] (by simp)) (by split_ifs <;> trivial) (by simp) (.inl rfl)
      rw [e1]
      unfold processStr
      rw [this]
      rfl
  · have : o.lineText [{ g with ws := b }] [] none none = { g with ws := b }.str := by
      unfold NormOpts.lineText
      simp only [hr, if_true, hw, List.map_nil, List.map_cons, List.append_nil, joinWith, Bool.false_eq_true, if_false]
      rw [if_neg hne]
      simp [joinWith]
    rw [this]

end Pygcode
