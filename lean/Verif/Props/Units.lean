import Verif.Props.Modes

/-!
# Unit modes are only recorded (C43)
-/

namespace Pygcode
open Props Machine

/-- The machine with another gcode in the units slot. -/
def withUnits (x : Option GCode) (m : Machine) : Machine := { m with mode := Function.update m.mode 6 x }

theorem updateRange_units (x : Option GCode) (m : Machine) (p : Position) :
    (withUnits x m).updateRange p = (withUnits x (m.updateRange p).1, (m.updateRange p).2) := by
  have h1 : (withUnits x m).rangeMin = m.rangeMin := rfl
  have h2 : (withUnits x m).rangeMax = m.rangeMax := rfl
  unfold updateRange
  rw [h1, h2]
  cases Position.min p m.rangeMin with
  | error e => rfl
  | ok lo => simp only; cases Position.max p m.rangeMax <;> rfl

theorem setPos_units (x : Option GCode) (m : Machine) (p : Position) :
    (withUnits x m).setPos p = (withUnits x (m.setPos p).1, (m.setPos p).2) := by
  have h : (withUnits x m).work2abs p = m.work2abs p := rfl
  unfold setPos
  rw [h]
  cases m.work2abs p with
  | error e => rfl
  | ok a => exact updateRange_units x { m with absPos := a } a

theorem move_units (x : Option GCode) (m : Machine) (cs : Coords) :
    (withUnits x m).move cs = (withUnits x (m.move cs).1, (m.move cs).2) := by
  have h1 : (withUnits x m).incremental = m.incremental := rfl
  have h2 : (withUnits x m).pos = m.pos := rfl
  have h3 : (withUnits x m).axes = m.axes := rfl
  unfold move
  rw [h1, h2, h3]
  cases m.incremental
  · simp only [Bool.false_eq_true, if_false]
    cases m.pos with
    | error e => rfl
    | ok p =>
      simp only
      split
      · rfl
      · split
        · rfl
        · rcases p.update _ with ⟨q, _ | e⟩
          · exact setPos_units x m q
          · rfl
  · simp only [if_true]
    cases m.pos with
    | error e => rfl
    | ok p =>
      simp only
      split
      · rfl
      · cases p.add _ with
        | error e => rfl
        | ok q => exact setPos_units x m q

theorem moves_units (x : Option GCode) (cs : Coords) (n : ℕ) (m : Machine) :
    (withUnits x m).moves cs n = (withUnits x (m.moves cs n).1, (m.moves cs n).2) := by
  induction n generalizing m with
  | zero => rfl
  | succ n ih =>
    unfold moves andThen
    rw [move_units]
    rcases m.move cs with ⟨m', _ | e⟩
    · exact ih m'
    · rfl

theorem effect_units (x : Option GCode) (m : Machine) (g : GCode) :
    (withUnits x m).effect g = (withUnits x (m.effect g).1, (m.effect g).2) := by
  have h1 : (withUnits x m).axes = m.axes := rfl
  have h2 : (withUnits x m).cannedCoords g = m.cannedCoords g := rfl
  unfold effect
  rw [h1, h2]
  cases g.cls.proc with
  | nothing => rfl
  | motion => exact move_units x m _
  | rapid => exact move_units x m _
  | cancel =>
    simp only
    refine Prod.ext ?_ rfl
    simp only [withUnits]
    rw [Function.update_comm (by decide)]
  | canned =>
    simp only
    cases m.cannedCoords g with
    | error e => rfl
    | ok cs =>
      simp only
      cases loopCount g with
      | error e => rfl
      | ok n => exact moves_units x cs n m

/-- Same machine up to the gcode in the units slot. -/
def SameButUnits (m m' : Machine) : Prop := ∃ x, m' = withUnits x m

/-- Unit gcodes (group 6, so G20 and G21). -/
def IsUnit (g : GCode) : Prop := g.cls.group = some 6

/-- Gcodes that are equal, or both unit gcodes. -/
def UnitRel (g g' : GCode) : Prop := g = g' ∨ (IsUnit g ∧ IsUnit g' ∧ GOK g ∧ GOK g')

/-- Table: the unit gcodes do nothing but select a mode, and are executed at the same time. -/
theorem unit_table (c : Cls) (h : c.group = some 6) : c.proc = .nothing ∧ c.order = 160 := by
  have := Cls.forall_of_all (p := fun c => !(c.group == some 6) || (c.proc == .nothing && c.order == 160))
    (by decide +kernel) c
  simpa [h] using this

theorem UnitRel.order {g g' : GCode} (h : UnitRel g g') : g.cls.order = g'.cls.order := by
  rcases h with rfl | ⟨h1, h2, -⟩
  · rfl
  · rw [(unit_table _ h1).2, (unit_table _ h2).2]

theorem withMode_units (x : Option GCode) (m : Machine) (md : Mode) :
    (withUnits x m).withMode (Function.update md 6 x) = withUnits x (m.withMode md) := by
  simp only [withMode, withUnits, Mode.coordSystem]
  rw [Function.update_of_ne (by decide)]

theorem setIn_unit (md : Mode) (g : GCode) (h : IsUnit g) :
    setIn md g = Function.update md 6 (some (copyOf g)) := by
  unfold setIn; rw [h]

theorem process_unit (m : Machine) (hs : Synced m) (g : GCode) (hg : GOK g) (h : IsUnit g) :
    m.process g = (withUnits (some (copyOf g)) m, none) := by
  rw [process_eq m g hg, setIn_unit _ g h]
  have he : ∀ m' : Machine, m'.effect g = (m', none) := by
    intro m'; unfold effect; rw [(unit_table _ h).1]
  rw [he]
  congr 1
  unfold withMode withUnits
  have h12 : Mode.coordSystem (Function.update m.mode 6 (some (copyOf g))) = m.mode.coordSystem := by
    unfold Mode.coordSystem; rw [Function.update_of_ne (by decide)]
  rw [h12]
  cases hc : m.mode.coordSystem with
  | none => rfl
  | some c => simp only [← hs c hc]

theorem process_sim {m m' : Machine} (h : SameButUnits m m') (hs : Synced m) {g g' : GCode} (hr : UnitRel g g')
    (hg : GOK g) : SameButUnits (m.process g).1 (m'.process g').1 ∧ (m.process g).2 = (m'.process g').2 := by
  obtain ⟨x, rfl⟩ := h
  rcases hr with rfl | ⟨h1, h2, h3, h4⟩
  · rw [process_eq _ g hg, process_eq _ g hg]
    by_cases hu : IsUnit g
    · have hmd : setIn (withUnits x m).mode g = setIn m.mode g := by
        rw [setIn_unit _ g hu, setIn_unit _ g hu]
        show Function.update (Function.update m.mode 6 x) 6 _ = _
        rw [Function.update_idem]
      rw [hmd]
      have : (withUnits x m).withMode (setIn m.mode g) = m.withMode (setIn m.mode g) := rfl
      rw [this]
      refine ⟨⟨(m.withMode (setIn m.mode g)).effect g |>.1.mode 6, ?_⟩, rfl⟩
      unfold withUnits
      rw [Function.update_eq_self]
    · have hmd : setIn (withUnits x m).mode g = Function.update (setIn m.mode g) 6 x := by
        unfold setIn
        cases hgr : g.cls.group with
        | none => rfl
        | some k =>
          have hk : k ≠ 6 := by rintro rfl; exact hu hgr
          simp only
          show Function.update (Function.update m.mode 6 x) k _ = _
          rw [Function.update_comm hk.symm]
      rw [hmd, withMode_units, effect_units]
      exact ⟨⟨x, rfl⟩, rfl⟩
  · have hs' : Synced (withUnits x m) := by
      intro c hc
      apply hs c
      have : (withUnits x m).mode.coordSystem = m.mode.coordSystem := by
        show Function.update m.mode 6 x 12 = m.mode 12
        rw [Function.update_of_ne (by decide)]
      rw [← this]; exact hc
    rw [process_unit m hs g h3 h1, process_unit _ hs' g' h4 h2]
    refine ⟨⟨some (copyOf g'), ?_⟩, rfl⟩
    simp only [withUnits, Function.update_idem]

theorem all_sim (gs gs' : List GCode) (hr : List.Forall₂ UnitRel gs gs') (hg : ∀ g ∈ gs, GOK g)
    (m m' : Machine) (hm : m.WF) (hs : Synced m) (h : SameButUnits m m') :
    SameButUnits (m.processAll gs).1 (m'.processAll gs').1 ∧
      (m.processAll gs).2 = (m'.processAll gs').2 := by
  induction hr generalizing m m' with
  | nil => exact ⟨h, rfl⟩
  | @cons g g' gs gs' hgg _ ih =>
    have h0 := process_sim h hs hgg (hg g List.mem_cons_self)
    have h1 := process_synced m hm g (hg g List.mem_cons_self)
    have h2 := (path_process m hm g (hg g List.mem_cons_self)).wf hm
    unfold processAll andThen
    rcases hp : m.process g with ⟨n, _ | e⟩ <;> rcases hp' : m'.process g' with ⟨n', _ | e'⟩ <;>
      rw [hp, hp'] at h0 <;> simp only [reduceCtorEq, and_false, Option.some.injEq] at h0
    · rw [hp] at h1 h2
      exact ih (fun x hx => hg x (List.mem_cons_of_mem _ hx)) n n' h2 h1 h0.1
    · obtain ⟨h0, rfl⟩ := h0
      exact ⟨h0, rfl⟩

theorem forall₂_insert {g g' : GCode} (hg : UnitRel g g') {gs gs' : List GCode}
    (h : List.Forall₂ UnitRel gs gs') :
    List.Forall₂ UnitRel (gs.orderedInsert (fun a b => a.cls.order ≤ b.cls.order) g)
      (gs'.orderedInsert (fun a b => a.cls.order ≤ b.cls.order) g') := by
  induction h with
  | nil => exact .cons hg .nil
  | @cons a a' as as' ha has ih =>
    simp only [List.orderedInsert_cons]
    rw [hg.order, ha.order]
    split_ifs
    · exact .cons hg (.cons ha has)
    · exact .cons ha ih

theorem forall₂_sort {gs gs' : List GCode} (h : List.Forall₂ UnitRel gs gs') :
    List.Forall₂ UnitRel (execSort gs) (execSort gs') := by
  induction h with
  | nil => exact .nil
  | @cons a a' as as' ha has ih => exact forall₂_insert ha ih

theorem modalGcode_units (x : Option GCode) (m : Machine) (mp : List Word) :
    (withUnits x m).modalGcode mp = m.modalGcode mp := rfl

theorem block_sim {m m' : Machine} (hm : m.WF) (hs : Synced m) (h : SameButUnits m m') (gs gs' : List GCode)
    (mp : List Word) (hr : List.Forall₂ UnitRel gs gs') (hg : ∀ g ∈ gs, GOK g) :
    SameButUnits (m.processGcodes gs mp).1 (m'.processGcodes gs' mp).1 ∧
      (m.processGcodes gs mp).2 = (m'.processGcodes gs' mp).2 := by
  obtain ⟨x, rfl⟩ := h
  unfold processGcodes
  rw [modalGcode_units]
  cases hmg : m.modalGcode mp with
  | error e => exact ⟨⟨x, rfl⟩, rfl⟩
  | ok og =>
    simp only
    refine all_sim _ _ (forall₂_sort ?_) (sort_gok hg (fun g hog => modalGcode_gok (by rw [hmg, hog])))
      m _ hm hs ⟨x, rfl⟩
    apply List.rel_append hr
    cases og with
    | none => exact .nil
    | some g => exact .cons (.inl rfl) .nil

/-- Programs (lists of blocks: gcodes and left-over words) that differ only in their unit gcodes. -/
inductive SameButUnitGcodes : List (List GCode × List Word) → List (List GCode × List Word) → Prop
  | nil : SameButUnitGcodes [] []
  | cons (gs gs' mp p p') : List.Forall₂ UnitRel gs gs' → SameButUnitGcodes p p' →
      SameButUnitGcodes ((gs, mp) :: p) ((gs', mp) :: p')

/-- Outcomes of processing a program: per block, the absolute position and range afterwards and the
exception. -/
def outcomes (m : Machine) : List (List GCode × List Word) → List (Position × Position × Position × Option Err)
  | [] => []
  | (gs, mp) :: r =>
    let o := m.processGcodes gs mp
    (o.1.absPos, o.1.rangeMin, o.1.rangeMax, o.2) :: outcomes o.1 r

/-- C43, what the code does: replacing unit gcodes by others anywhere in a program changes no
position, range or exception: coordinates are raw numbers whatever the unit mode. -/
theorem C43_raw_partial (p p' : List (List GCode × List Word)) (h : SameButUnitGcodes p p') (m : Machine)
    (hm : m.WF) (hs : Synced m) (hg : ∀ b ∈ p, ∀ g ∈ b.1, GOK g) : outcomes m p = outcomes m p' := by
  have key : ∀ m m' : Machine, m.WF → Synced m → SameButUnits m m' → outcomes m p = outcomes m' p' := by
    clear hm hs m
    induction h with
    | nil => intros; rfl
    | cons gs gs' mp p p' hr _ ih =>
      intro m m' hm hs h
      have hgs := hg (gs, mp) List.mem_cons_self
      have h0 := block_sim hm hs h gs gs' mp hr hgs
      have h1 := block_synced m hm hs gs mp hgs
      have h2 := (path_block m hm gs mp hgs).wf hm
      have h3 := ih (fun b hb => hg b (List.mem_cons_of_mem _ hb)) _ _ h2 h1 h0.1
      unfold outcomes
      simp only
      rw [h3, h0.2]
      obtain ⟨x, hx⟩ := h0.1
      rw [hx]
      rfl
  exact key m m hm hs ⟨m.mode 6, by unfold withUnits; rw [Function.update_eq_self]⟩

/-- C43: processing a unit gcode leaves everything but the mode as it was. -/
theorem C43_unit_gcode_partial (m : Machine) (hs : Synced m) (g : GCode) (hg : GOK g) (h : g.cls.group = some 6) :
    (m.process g).2 = none ∧ (m.process g).1.absPos = m.absPos ∧ (m.process g).1.state = m.state ∧
    (m.process g).1.rangeMin = m.rangeMin ∧ (m.process g).1.rangeMax = m.rangeMax ∧
    ∀ k, k ≠ 6 → (m.process g).1.mode k = m.mode k := by
  rw [process_unit m hs g hg h]
  exact ⟨rfl, rfl, rfl, rfl, rfl, fun k hk => Function.update_of_ne hk _ _⟩

/-- C43 is violated: one inch is not 25.4 mm.  Expected by a user: a program in inches and its
translation to millimetres end at the same absolute position. -/
theorem C43_refuted : ¬ ∀ x : ℚ,
    let inch : List Call := [.gcode ⟨.useInches, ⟨'G', .num 20⟩, [], false⟩,
      .gcode ⟨.linearMove, ⟨'G', .num 1⟩, [⟨'X', .num x⟩], false⟩]
    let mm : List Call := [.gcode ⟨.useMillimeters, ⟨'G', .num 21⟩, [], false⟩,
      .gcode ⟨.linearMove, ⟨'G', .num 1⟩, [⟨'X', .num (25.4 * x)⟩], false⟩]
    (Call.runAll newNull inch).absPos.val .X = (Call.runAll newNull mm).absPos.val .X := by
  intro h
  have := h 1
  revert this
  decide +kernel

/-- The hypotheses of `C43_raw_partial` hold for a program of two blocks on a new machine. -/
example : outcomes newNull [([⟨.useInches, ⟨'G', .num 20⟩, [], false⟩, sampleMove], []), ([], [⟨'X', .num 7⟩])] =
    outcomes newNull [([⟨.useMillimeters, ⟨'G', .num 21⟩, [], false⟩, sampleMove], []), ([], [⟨'X', .num 7⟩])] :=
  C43_raw_partial _ _ (.cons _ _ _ _ _
      (.cons (.inr ⟨by unfold IsUnit; decide +kernel, by unfold IsUnit; decide +kernel, by simp [GOK], by simp [GOK]⟩)
        (.cons (.inl rfl) .nil)) (.cons _ _ _ _ _ .nil .nil)) newNull
    (newWith_wf xyz Mode.null) C42_new.2
    (by
      intro b hb g hg
      have h : ∀ g ∈ [(⟨.useInches, ⟨'G', .num 20⟩, [], false⟩ : GCode), sampleMove],
          (g.params.map Word.letter).Nodup ∧ ∀ p ∈ g.params, p.letter ∈ g.cls.params := by decide +kernel
      simp only [List.mem_cons, List.not_mem_nil, or_false] at hb
      rcases hb with rfl | rfl
      · exact h g hg
      · cases hg)

example : (outcomes newNull [([⟨.useInches, ⟨'G', .num 20⟩, [], false⟩, sampleMove], []),
    ([], [⟨'X', .num 7⟩])]).map (fun o => (o.1.val .X, o.1.val .Z, o.2.2.2)) =
    [(3, -1, none), (7, -1, none)] := by decide +kernel

/-! ## Sums of positions -/

/-- **C27**: in the same unit, sums and differences are those of the lengths. -/
theorem C27_sum_partial (a b c : Position) (hu : a.unit = b.unit) :
    (a.add b = .ok c → c.unit = a.unit ∧ ∀ x, lengthMM c x = lengthMM a x + lengthMM b x) ∧
    (a.sub b = .ok c → c.unit = a.unit ∧ ∀ x, lengthMM c x = lengthMM a x - lengthMM b x) := by
  constructor
  · intro h
    unfold Position.add at h
    split_ifs at h
    cases h
    refine ⟨rfl, fun x => ?_⟩
    unfold lengthMM
    simp only
    rw [← hu]
    cases a.unit <;> simp only <;> ring
  · intro h
    unfold Position.sub at h
    split_ifs at h
    cases h
    refine ⟨rfl, fun x => ?_⟩
    unfold lengthMM
    simp only
    rw [← hu]
    cases a.unit <;> simp only <;> ring

/-- With different units the raw numbers are added: 1 mm and 1 inch make 2 mm, or 2 inches. -/
theorem C27_sum_refuted : ∃ a b c d : Position, a.add b = .ok c ∧ b.add a = .ok d ∧
    lengthMM c .X ≠ lengthMM a .X + lengthMM b .X ∧ lengthMM d .X ≠ lengthMM c .X :=
  ⟨.make {.X} .mm [(.X, 1)], .make {.X} .inch [(.X, 1)], _, _, rfl, rfl, by decide +kernel, by decide +kernel⟩

end Pygcode
