import Verif.Lemmas.Coords
import Mathlib.Order.Bounds.Basic
import Mathlib.Algebra.BigOperators.Group.List.Basic

/-!
# Where the machine is (C30 – C34, C42)
-/

namespace Pygcode
open Props Machine

/-! ## New machines -/

/-- A new machine, whatever its axes and mode, is well-formed. -/
theorem newWith_wf (ax : Finset Axis) (md : Mode) : (newWith ax md).WF :=
  ⟨rfl, fun _ _ => rfl, fun f h k => by
    simp only [newWith, State.new, CSTable.dict.injEq] at h
    subst h
    exact ⟨rfl, fun _ _ => rfl⟩, rfl, fun _ _ => rfl, fun _ h => h, fun _ h => h⟩

/-- A machine with tables of offsets (not a copy) has no unusable coordinate system. -/
theorem not_bad_of_dict {m : Machine} {f : ℕ → Position} (h : m.state.systems = .dict f) :
    ¬ m.BadSys := by
  rintro ⟨h', -⟩; rw [h] at h'; cases h'

/-- The gcode in the coordinate-system slot, if any, selects the current coordinate system. -/
def Synced (m : Machine) : Prop :=
  ∀ g, m.mode.coordSystem = some g → m.state.cur = g.cls.coordSys.getD 0

theorem withMode_synced (m : Machine) (md : Mode) : Synced (m.withMode md) := by
  intro g hg
  simp only [withMode] at hg ⊢
  rw [hg]

/-! ## C30 -/

/-- Reading back an assigned position: `m.pos = p` then `m.pos` is `p` (same coordinates and unit),
and the absolute position is `p` plus the offset of the current coordinate system plus the
temporary offset. -/
theorem C30_readback (m : Machine) (hm : m.WF) (f : ℕ → Position) (hs : m.state.systems = .dict f)
    (hc : 1 ≤ m.state.cur ∧ m.state.cur ≤ 9) (p : Position) (hp : p.axes = m.axes) (hw : p.WF) :
    ∃ m', m.setPos p = (m', none) ∧ m'.WF ∧ m'.pos = .ok p ∧
      (∀ a, m'.absPos.val a = p.val a + (f m.state.cur).val a + m.state.offset.val a) ∧
      m'.mode = m.mode ∧ m'.state = m.state := by
  have hb := not_bad_of_dict hs
  have hoff : ∀ a, m.sysOff a = (f m.state.cur).val a := by
    intro a; unfold sysOff; rw [hs]; simp [hc]
  let m' : Machine := { m with
    absPos := ⟨m.axes, p.unit, fun a => p.val a + m.state.offset.val a + m.sysOff a⟩
    rangeMin := ⟨Axis.all, p.unit, fun x => if x ∈ m.axes then
      Min.min (p.val x + m.state.offset.val x + m.sysOff x) (m.rangeMin.val x) else 0⟩
    rangeMax := ⟨Axis.all, p.unit, fun x => if x ∈ m.axes then
      Max.max (p.val x + m.state.offset.val x + m.sysOff x) (m.rangeMax.val x) else 0⟩ }
  have hwf : m'.WF := by
    refine ⟨rfl, ?_, hm.sys, hm.off, hm.offWF, Finset.subset_univ _, Finset.subset_univ _⟩
    intro a ha
    show p.val a + m.state.offset.val a + m.sysOff a = 0
    rw [hw a (hp ▸ ha), off_outside m hm a ha, sysOff_outside m hm a ha]; simp
  refine ⟨m', ?_, hwf, ?_, ?_, rfl, rfl⟩
  · unfold setPos
    rw [work2abs_ok m hm hb p hp]
    simp only [updateRange, Position.min, Position.max, cmp_eq, hm.lo, hm.hi, if_true, m']
  · rw [pos_ok m' hwf hb]
    obtain ⟨ax, u, v⟩ := p
    simp only at hp
    subst hp
    congr 2
    funext a
    show v a + m.state.offset.val a + m.sysOff a - m.sysOff a - m.state.offset.val a = v a
    ring
  · intro a
    show p.val a + m.state.offset.val a + m.sysOff a = _
    rw [hoff]; ring

/-- Converting back and forth between work and absolute coordinates. -/
theorem C30_inverse (m : Machine) (hm : m.WF) (hb : ¬ m.BadSys) (p : Position)
    (hp : p.axes = m.axes) :
    (∃ q, m.work2abs p = .ok q ∧ m.abs2work q = .ok p) ∧
    (∃ q, m.abs2work p = .ok q ∧ m.work2abs q = .ok p) := by
  obtain ⟨ax, u, v⟩ := p
  simp only at hp
  subst hp
  constructor
  · refine ⟨_, work2abs_ok m hm hb _ rfl, ?_⟩
    rw [abs2work_ok m hm hb _ rfl]
    congr 2
    funext a
    simp only
    ring
  · refine ⟨_, abs2work_ok m hm hb _ rfl, ?_⟩
    rw [work2abs_ok m hm hb _ rfl]
    congr 2
    funext a
    simp only
    ring

/-- A mode: G0 G17 G90 G54. -/
def sampleMode : Mode := fun k =>
  if k = 1 then some ⟨.rapidMove, ⟨'G', .num 0⟩, [], false⟩
  else if k = 2 then some ⟨.selectXYPlane, ⟨'G', .num 17⟩, [], false⟩
  else if k = 3 then some ⟨.absoluteDistanceMode, ⟨'G', .num 90⟩, [], false⟩
  else if k = 12 then some ⟨.selectCoordinateSystem1, ⟨'G', .num 54⟩, [], false⟩
  else none

/-- A machine whose current coordinate system and temporary offset are not zero. -/
def sampleMachine : Machine :=
  { newWith xyz sampleMode with
    state := { State.new xyz with
      systems := .dict (fun k => Position.make xyz .mm [(.X, 10 * k)])
      offset := Position.make xyz .mm [(.X, 1), (.Z, 2)] } }

example : ((sampleMachine.setPos (Position.make xyz .mm [(.X, 5), (.Y, 6)])).1.pos).map
    (fun p => (p.val .X, p.val .Y, p.val .Z)) = .ok (5, 6, 0) := by decide +kernel
example : ((sampleMachine.setPos (Position.make xyz .mm [(.X, 5), (.Y, 6)])).1.absPos.val .X) = 16 := by
  decide +kernel

/-! ## C31 -/

/-- Table: gcodes that move belong to the motion group, and so do not change the distance mode or
the coordinate system. -/
theorem moving_group (c : Cls) (h : c.proc = .motion ∨ c.proc = .rapid ∨ c.proc = .canned) :
    c.group = some 1 := by
  have := Cls.forall_of_all (p := fun c =>
    !(c.proc == .motion || c.proc == .rapid || c.proc == .canned) || c.group == some 1)
    (by decide +kernel) c
  rcases h with h | h | h <;> simpa [h] using this

theorem setIn_motion (md : Mode) (g : GCode) (h : g.cls.group = some 1) :
    setIn md g = Function.update md 1 (some (copyOf g)) := by
  unfold setIn; rw [h]

/-- After setting a motion gcode in the mode of a synchronised machine, only the motion slot has
changed. -/
theorem withMode_motion (m : Machine) (hs : Synced m) (x : Option GCode) :
    m.withMode (Function.update m.mode 1 x) = { m with mode := Function.update m.mode 1 x } := by
  unfold withMode
  have : Mode.coordSystem (Function.update m.mode 1 x) = m.mode.coordSystem := rfl
  rw [this]
  cases h : m.mode.coordSystem with
  | none => rfl
  | some g => simp only [← hs g h]

/-- The machine after a motion gcode, in closed form. -/
theorem process_motion (m : Machine) (hm : m.WF) (hb : ¬ m.BadSys) (hs : Synced m) (g : GCode)
    (hg : GOK g) (hp : g.cls.proc = .motion ∨ g.cls.proc = .rapid) :
    m.process g =
      (({ m with mode := Function.update m.mode 1 (some (copyOf g)) } : Machine).goto
        (m.target (coords m.axes g)), none) := by
  have hgr : g.cls.group = some 1 := moving_group _ (by tauto)
  rw [process_eq m g hg, setIn_motion m.mode g hgr, withMode_motion m hs]
  exact motion_effect { m with mode := Function.update m.mode 1 (some (copyOf g)) }
    ⟨hm.abs, hm.absWF, hm.sys, hm.off, hm.offWF, hm.lo, hm.hi⟩ hb g hg hp

theorem goto_goto (m : Machine) (v : Axis → ℚ) : (m.goto v).goto v = m.goto v := by
  unfold goto
  congr 2 <;> funext a <;> by_cases h : a ∈ m.axes <;> simp [h]

theorem target_idem (m m' : Machine) (cs : List (Axis × ℚ)) (h : m.incremental = false)
    (h' : m'.incremental = false) (ho : m'.state.offset = m.state.offset)
    (hs : ∀ a, m'.sysOff a = m.sysOff a) (ha : m'.absPos.val = m.target cs) :
    m'.target cs = m.target cs := by
  funext a
  have ha := congrFun ha a
  unfold target at ha ⊢
  cases hl : Position.lookup cs a with
  | none => simp only [hl] at ha ⊢; exact ha
  | some v => simp only [h, h', ho, hs, Bool.false_eq_true, if_false]

/-- Absolute moves go exactly to the given coordinates: whatever the offsets, each given axis of
`m.pos` gets the given value and the other axes stay; a second execution changes nothing at all. -/
theorem C31_absolute (m : Machine) (hm : m.WF) (hb : ¬ m.BadSys) (hs : Synced m)
    (hab : ∀ d, m.mode.distance = some d → d.cls.isSub .incrementalDistanceMode = false)
    (g : GCode) (hg : GOK g) (hp : g.cls.proc = .motion ∨ g.cls.proc = .rapid) :
    ∃ m' p p', m.process g = (m', none) ∧ m.pos = .ok p ∧ m'.pos = .ok p' ∧
      (∀ a ∈ m.axes, ∀ v, g.num? a.letter = some v → p'.val a = v) ∧
      (∀ a, (a ∈ m.axes → g.num? a.letter = none) → p'.val a = p.val a) ∧
      p'.axes = m.axes ∧ m'.process g = (m', none) := by
  have hinc : m.incremental = false := by
    unfold incremental
    cases h : m.mode.distance with
    | none => rfl
    | some d => exact hab d h
  have hproc := process_motion m hm hb hs g hg hp
  set m₁ : Machine := { m with mode := Function.update m.mode 1 (some (copyOf g)) } with hm₁
  have hm₁wf : m₁.WF := ⟨hm.abs, hm.absWF, hm.sys, hm.off, hm.offWF, hm.lo, hm.hi⟩
  have htz : ∀ a ∉ m.axes, m.target (coords m.axes g) a = 0 := by
    intro a ha
    unfold target
    rw [coords_lookup, if_neg ha]
    exact abs_outside m hm a ha
  have hwf : (m₁.goto (m.target (coords m.axes g))).WF := goto_wf m₁ hm₁wf _ htz
  have hb' : ¬ (m₁.goto (m.target (coords m.axes g))).BadSys := hb
  refine ⟨_, _, _, hproc, pos_ok m hm hb, pos_ok _ hwf hb', ?_, ?_, rfl, ?_⟩
  · intro a ha v hv
    show m.target (coords m.axes g) a - m.sysOff a - m.state.offset.val a = v
    unfold target
    rw [coords_lookup, if_pos ha, hv, hinc]
    simp
  · intro a ha
    show m.target (coords m.axes g) a - m.sysOff a - m.state.offset.val a = _
    unfold target
    rw [coords_lookup]
    by_cases h : a ∈ m.axes
    · rw [if_pos h, ha h]
    · rw [if_neg h]
  · have hs' : Synced (m₁.goto (m.target (coords m.axes g))) := hs
    rw [process_motion _ hwf hb' hs' g hg hp]
    have h1 : ({ (m₁.goto (m.target (coords m.axes g))) with
        mode := Function.update (m₁.goto (m.target (coords m.axes g))).mode 1 (some (copyOf g)) } : Machine) =
        m₁.goto (m.target (coords m.axes g)) := by
      simp only [goto, hm₁, Function.update_idem]
    have h2 : (m₁.goto (m.target (coords m.axes g))).target
        (coords (m₁.goto (m.target (coords m.axes g))).axes g) = m.target (coords m.axes g) := by
      exact target_idem m _ (coords m.axes g) hinc hinc rfl (fun _ => rfl) rfl
    rw [h1, h2, goto_goto]

/-- `G1 X3 Z-1` on a machine with offsets. -/
def sampleMove : GCode := ⟨.linearMove, ⟨'G', .num 1⟩, [⟨'X', .num 3⟩, ⟨'Z', .num (-1)⟩], false⟩

example : (((sampleMachine.process sampleMove).1.pos).map (fun p => (p.val .X, p.val .Y, p.val .Z)),
    ((sampleMachine.pos).map (fun p => (p.val .X, p.val .Y, p.val .Z)))) =
    (.ok (3, 0, -1), .ok (-11, 0, -2)) := by decide +kernel

/-! ## C32 -/

/-- Coordinate of an axis given by a gcode, 0 if it gives none. -/
def given (g : GCode) (a : Axis) : ℚ := (g.num? a.letter).getD 0

/-- In incremental mode the absolute coordinates add up, offsets and state are kept. -/
theorem processAll_incremental (gs : List GCode) (m : Machine) (hm : m.WF) (hb : ¬ m.BadSys)
    (hs : Synced m) (d : GCode) (hd : m.mode.distance = some d)
    (hinc : d.cls.isSub .incrementalDistanceMode = true)
    (hg : ∀ g ∈ gs, GOK g ∧ (g.cls.proc = .motion ∨ g.cls.proc = .rapid)) :
    ∃ m', m.processAll gs = (m', none) ∧ m'.WF ∧ ¬ m'.BadSys ∧ m'.axes = m.axes ∧
      (∀ a, m'.sysOff a = m.sysOff a) ∧ m'.state = m.state ∧
      ∀ a ∈ m.axes, m'.absPos.val a = m.absPos.val a + (gs.map (fun g => given g a)).sum := by
  induction gs generalizing m with
  | nil => exact ⟨m, rfl, hm, hb, rfl, fun _ => rfl, rfl, by simp⟩
  | cons g gs ih =>
    have hgg := hg g List.mem_cons_self
    have hproc := process_motion m hm hb hs g hgg.1 hgg.2
    set m₁ : Machine := { m with mode := Function.update m.mode 1 (some (copyOf g)) } with hm₁
    have hm₁wf : m₁.WF := ⟨hm.abs, hm.absWF, hm.sys, hm.off, hm.offWF, hm.lo, hm.hi⟩
    have htz : ∀ a ∉ m.axes, m.target (coords m.axes g) a = 0 := by
      intro a ha
      unfold target
      rw [coords_lookup, if_neg ha]
      exact abs_outside m hm a ha
    obtain ⟨m', h1, h2, h3, h4, h5, h6, h7⟩ := ih (m₁.goto (m.target (coords m.axes g)))
      (goto_wf m₁ hm₁wf _ htz) hb hs hd (fun x hx => hg x (List.mem_cons_of_mem _ hx))
    refine ⟨m', ?_, h2, h3, h4, h5, h6, ?_⟩
    · unfold processAll andThen
      rw [hproc]
      exact h1
    · intro a ha
      rw [h7 a ha]
      show m.target (coords m.axes g) a + _ = _
      have hi : m.incremental = true := by unfold incremental; rw [hd]; exact hinc
      have : m.target (coords m.axes g) a = m.absPos.val a + given g a := by
        unfold target given
        rw [coords_lookup, if_pos ha, hi]
        cases g.num? a.letter <;> simp
      rw [this, List.map_cons, List.sum_cons]
      ring

/-- In incremental mode any sequence of motions adds up, axis by axis. -/
theorem C32_sum (gs : List GCode) (m : Machine) (hm : m.WF) (hb : ¬ m.BadSys) (hs : Synced m)
    (d : GCode) (hd : m.mode.distance = some d) (hinc : d.cls.isSub .incrementalDistanceMode = true)
    (hg : ∀ g ∈ gs, GOK g ∧ (g.cls.proc = .motion ∨ g.cls.proc = .rapid)) :
    ∃ m' p p', m.processAll gs = (m', none) ∧ m.pos = .ok p ∧ m'.pos = .ok p' ∧
      ∀ a ∈ m.axes, p'.val a = p.val a + (gs.map (fun g => given g a)).sum := by
  obtain ⟨m', h1, h2, h3, h4, h5, h6, h7⟩ := processAll_incremental gs m hm hb hs d hd hinc hg
  refine ⟨m', _, _, h1, pos_ok m hm hb, pos_ok m' h2 h3, ?_⟩
  intro a ha
  simp only [h7 a ha, h5, h6]
  ring

/-- The end point does not depend on the order of the moves. -/
theorem C32_order (gs gs' : List GCode) (hperm : gs.Perm gs') (m : Machine) (hm : m.WF)
    (hb : ¬ m.BadSys) (hs : Synced m) (d : GCode) (hd : m.mode.distance = some d)
    (hinc : d.cls.isSub .incrementalDistanceMode = true)
    (hg : ∀ g ∈ gs, GOK g ∧ (g.cls.proc = .motion ∨ g.cls.proc = .rapid)) :
    ∃ m₁ m₂ p₁ p₂, m.processAll gs = (m₁, none) ∧ m.processAll gs' = (m₂, none) ∧
      m₁.pos = .ok p₁ ∧ m₂.pos = .ok p₂ ∧ ∀ a ∈ m.axes, p₁.val a = p₂.val a := by
  obtain ⟨m₁, p, p₁, h1, h2, h3, h4⟩ := C32_sum gs m hm hb hs d hd hinc hg
  obtain ⟨m₂, p', p₂, k1, k2, k3, k4⟩ := C32_sum gs' m hm hb hs d hd hinc
    (fun g h => hg g (hperm.mem_iff.2 h))
  refine ⟨m₁, m₂, p₁, p₂, h1, k1, h3, k3, ?_⟩
  intro a ha
  rw [h2] at k2; cases k2
  rw [h4 a ha, k4 a ha, (hperm.map _).sum_eq]

/-- Moves of length zero go nowhere. -/
theorem C32_zero (gs : List GCode) (m : Machine) (hm : m.WF) (hb : ¬ m.BadSys) (hs : Synced m)
    (d : GCode) (hd : m.mode.distance = some d) (hinc : d.cls.isSub .incrementalDistanceMode = true)
    (hg : ∀ g ∈ gs, GOK g ∧ (g.cls.proc = .motion ∨ g.cls.proc = .rapid))
    (hz : ∀ g ∈ gs, ∀ a ∈ m.axes, given g a = 0) :
    ∃ m' p p', m.processAll gs = (m', none) ∧ m.pos = .ok p ∧ m'.pos = .ok p' ∧
      ∀ a ∈ m.axes, p'.val a = p.val a := by
  obtain ⟨m₁, p, p₁, h1, h2, h3, h4⟩ := C32_sum gs m hm hb hs d hd hinc hg
  refine ⟨m₁, p, p₁, h1, h2, h3, ?_⟩
  intro a ha
  rw [h4 a ha]
  have : ∀ x ∈ gs.map (fun g => given g a), x = 0 := by
    intro x hx
    obtain ⟨g, hg', rfl⟩ := List.mem_map.1 hx
    exact hz g hg' a ha
  rw [List.sum_eq_zero this, add_zero]

example : let m := (sampleMachine.process ⟨.incrementalDistanceMode, ⟨'G', .num 91⟩, [], false⟩).1
    ((m.processAll [sampleMove, sampleMove, ⟨.rapidMove, ⟨'G', .num 0⟩, [⟨'X', .num (-1)⟩], false⟩]).1.absPos.val .X,
      m.absPos.val .X) = (5, 0) := by decide +kernel

/-! ## C33 -/

theorem path_low {m m' : Machine} {ps : List Position} (h : Path m ps m') (a : Axis) (ha : a ∈ m.axes) :
    IsLeast {x | x = m.rangeMin.val a ∨ ∃ p ∈ ps, x = p.val a} (m'.rangeMin.val a) := by
  induction h with
  | done m m' hf _ hl =>
    rw [hl]
    exact ⟨.inl rfl, by rintro x (rfl | ⟨p, hp, -⟩); exact le_refl _; simp at hp⟩
  | step m m' m₁ v ps hf habs hl hh hw hv _ ih =>
    obtain ⟨h1, h2⟩ := ih (show a ∈ m₁.axes from hf.axes ▸ ha)
    have hr : (m₁.goto v).rangeMin.val a = Min.min (v a) (m.rangeMin.val a) := by
      show (if a ∈ m₁.axes then _ else _) = _
      rw [hf.axes, if_pos ha, hl]
    constructor
    · rcases h1 with h1 | ⟨p, hp, h1⟩
      · rw [h1, hr]
        rcases min_choice (v a) (m.rangeMin.val a) with h | h
        · right; exact ⟨_, List.mem_cons_self, h⟩
        · left; exact h
      · right; exact ⟨p, List.mem_cons_of_mem _ hp, h1⟩
    · rintro x (rfl | ⟨p, hp, rfl⟩)
      · exact le_trans (h2 (.inl rfl)) (hr ▸ min_le_right _ _)
      · rcases List.mem_cons.1 hp with rfl | hp
        · exact le_trans (h2 (.inl rfl)) (hr ▸ min_le_left _ _)
        · exact h2 (.inr ⟨p, hp, rfl⟩)

theorem path_high {m m' : Machine} {ps : List Position} (h : Path m ps m') (a : Axis) (ha : a ∈ m.axes) :
    IsGreatest {x | x = m.rangeMax.val a ∨ ∃ p ∈ ps, x = p.val a} (m'.rangeMax.val a) := by
  induction h with
  | done m m' hf _ _ hh =>
    rw [hh]
    exact ⟨.inl rfl, by rintro x (rfl | ⟨p, hp, -⟩); exact le_refl _; simp at hp⟩
  | step m m' m₁ v ps hf habs hl hh hw hv _ ih =>
    obtain ⟨h1, h2⟩ := ih (show a ∈ m₁.axes from hf.axes ▸ ha)
    have hr : (m₁.goto v).rangeMax.val a = Max.max (v a) (m.rangeMax.val a) := by
      show (if a ∈ m₁.axes then _ else _) = _
      rw [hf.axes, if_pos ha, hh]
    constructor
    · rcases h1 with h1 | ⟨p, hp, h1⟩
      · rw [h1, hr]
        rcases max_choice (v a) (m.rangeMax.val a) with h | h
        · right; exact ⟨_, List.mem_cons_self, h⟩
        · left; exact h
      · right; exact ⟨p, List.mem_cons_of_mem _ hp, h1⟩
    · rintro x (rfl | ⟨p, hp, rfl⟩)
      · exact le_trans (hr ▸ le_max_right _ _) (h2 (.inl rfl))
      · rcases List.mem_cons.1 hp with rfl | hp
        · exact le_trans (hr ▸ le_max_left _ _) (h2 (.inl rfl))
        · exact h2 (.inr ⟨p, hp, rfl⟩)

theorem path_last {m m' : Machine} {ps : List Position} (h : Path m ps m') :
    m'.absPos = (m.absPos :: ps).getLast (by simp) := by
  induction h with
  | done _ _ _ ha => exact ha
  | step m m' m₁ v ps _ _ _ _ _ _ _ ih => rw [ih]; simp

/-- The recorded range is the bounding box of the start and everything visited, for any history of
calls (exceptions included) on a new machine with any axes and any initial mode; the machine is at
the last position visited. -/
theorem C33_box (ax : Finset Axis) (md : Mode) (cs : List Call)
    (hc : ∀ c ∈ cs, c.OK ax (newWith ax md).absPos.unit) :
    let m := newWith ax md
    let m' := Call.runAll m cs
    let ps := m.absPos :: Call.visitedAll m cs
    m'.absPos = ps.getLast (List.cons_ne_nil _ _) ∧
    ∀ a ∈ ax, IsLeast {x | ∃ p ∈ ps, x = p.val a} (m'.rangeMin.val a) ∧
      IsGreatest {x | ∃ p ∈ ps, x = p.val a} (m'.rangeMax.val a) ∧
      m'.rangeMin.val a ≤ m'.absPos.val a ∧ m'.absPos.val a ≤ m'.rangeMax.val a := by
  intro m m' ps
  have hp := path_calls cs m (newWith_wf ax md) hc
  refine ⟨path_last hp, ?_⟩
  intro a ha
  have hset : ∀ r : ℚ, r = 0 →
      {x | x = r ∨ ∃ p ∈ Call.visitedAll m cs, x = p.val a} = {x | ∃ p ∈ ps, x = p.val a} := by
    rintro r rfl
    ext x
    simp only [ps, Set.mem_setOf_eq, List.mem_cons, exists_eq_or_imp]
    rfl
  have hlo := path_low hp a ha
  have hhi := path_high hp a ha
  rw [hset (m.rangeMin.val a) rfl] at hlo
  rw [hset (m.rangeMax.val a) rfl] at hhi
  have hmem : ∃ p ∈ ps, m'.absPos.val a = p.val a :=
    ⟨_, List.getLast_mem _, by rw [path_last hp]⟩
  exact ⟨hlo, hhi, hlo.2 hmem, hhi.2 hmem⟩

/-- The box never shrinks, from any well-formed machine on. -/
theorem C33_monotone (m : Machine) (hm : m.WF) (cs : List Call)
    (hc : ∀ c ∈ cs, c.OK m.axes m.absPos.unit) (a : Axis) (ha : a ∈ m.axes) :
    (Call.runAll m cs).rangeMin.val a ≤ m.rangeMin.val a ∧
      m.rangeMax.val a ≤ (Call.runAll m cs).rangeMax.val a :=
  have hp := path_calls cs m hm hc
  ⟨(path_low hp a ha).2 (.inl rfl), (path_high hp a ha).2 (.inl rfl)⟩

/-- A history with an exception in the middle (`A` is not an axis of the machine). -/
def sampleHistory : List Call :=
  [.gcode sampleMove, .moveTo [(.X, some (-7)), (.A, some 1)], .str "G91 Y4 (up)".toList,
   .gcode ⟨.rapidMove, ⟨'G', .num 0⟩, [⟨'Y', .num 4⟩], false⟩, .str "X-5".toList]

example : let m := Call.runAll new sampleHistory
    (m.rangeMin.val .X, m.rangeMax.val .X, m.rangeMax.val .Y, m.rangeMin.val .Z, m.absPos.val .X) =
      (-2, 3, 8, -1, -2) := by decide +kernel
example : (Call.visitedAll new sampleHistory).map (fun p => (p.val .X, p.val .Y, p.val .Z)) =
    [(3, 0, -1), (3, 4, -1), (3, 8, -1), (-2, 8, -1)] := by decide +kernel

/-! ## C34 -/

/-- Gcodes that are neither motion nor canned cycle leave position and range alone, on every
machine and also if they raise. -/
theorem C34_only_motion (m : Machine) (g : GCode) (h1 : g.cls.isSub .motion = false)
    (h2 : g.cls.isSub .cannedCycle = false) :
    let m' := (m.process g).1
    m'.absPos = m.absPos ∧ m'.rangeMin = m.rangeMin ∧ m'.rangeMax = m.rangeMax ∧
      m'.state.systems = m.state.systems ∧ m'.state.offset = m.state.offset := by
  have hp : g.cls.proc = .nothing := by
    have := Cls.forall_of_all (p := fun c => c.isSub .motion || c.isSub .cannedCycle || c.proc == .nothing)
      (by decide +kernel) g.cls
    simpa [h1, h2] using this
  have heff : ∀ m : Machine, m.effect g = (m, none) := by intro m; unfold effect; rw [hp]
  have hset : ∀ r : MRes, m.setMode [g] = r → r.1.absPos = m.absPos ∧ r.1.rangeMin = m.rangeMin ∧
      r.1.rangeMax = m.rangeMax ∧ r.1.state.systems = m.state.systems ∧ r.1.state.offset = m.state.offset := by
    rintro r rfl
    unfold Machine.setMode
    rcases m.mode.setMode [g] with ⟨md, _ | e⟩
    · simp only
      cases md.coordSystem <;> exact ⟨rfl, rfl, rfl, rfl, rfl⟩
    · exact ⟨rfl, rfl, rfl, rfl, rfl⟩
  intro m'
  have := hset _ rfl
  have hm' : m' = (m.setMode [g]).1 := by
    simp only [m', process, andThen, heff]
    rcases m.setMode [g] with ⟨x, _ | e⟩ <;> rfl
  rw [hm']
  exact this

/-- The motion classes that do not move: dwell and the cancelling of canned cycles. -/
theorem C34_dwell_cancel (m : Machine) (g : GCode) (hg : GOK g)
    (h : g.cls = .dwell ∨ g.cls = .cancelCannedCycle) :
    (m.process g).2 = none ∧ (m.process g).1.absPos = m.absPos ∧
      (m.process g).1.rangeMin = m.rangeMin ∧ (m.process g).1.rangeMax = m.rangeMax := by
  rw [process_eq m g hg]
  unfold effect
  have hd : Cls.dwell.proc = .nothing := by decide +kernel
  have hc : Cls.cancelCannedCycle.proc = .cancel := by decide +kernel
  rcases h with h | h
  · rw [h, hd]; exact ⟨rfl, rfl, rfl, rfl⟩
  · rw [h, hc]; exact ⟨rfl, rfl, rfl, rfl⟩

/-- `G28 X1` and `G92 X1` leave the position alone (the library does not implement them). -/
example : ((sampleMachine.process ⟨.gotoPredefinedPosition, ⟨'G', .num 28⟩, [⟨'X', .num 1⟩], false⟩).1.absPos.val .X,
    (sampleMachine.process sampleMove).1.absPos.val .X) = (0, 14) := by decide +kernel

/-! ## C42 -/

/-- Table: the nine coordinate-system classes, and only they, are in the coordinate-system group. -/
theorem coord_group (c : Cls) (h : c.group = some 12) :
    c.proc = .nothing ∧ (c = .selectCoordinateSystem ∨ ∃ k, c.coordSys = some k ∧ 1 ≤ k ∧ k ≤ 9) := by
  have := Cls.forall_of_all (p := fun c => !(c.group == some 12) || (c.proc == .nothing &&
      (c == .selectCoordinateSystem ||
      match c.coordSys with | none => false | some k => decide (1 ≤ k) && decide (k ≤ 9))))
    (by decide +kernel) c
  simp only [h, BEq.rfl, Bool.not_true, Bool.false_or, Bool.and_eq_true, beq_iff_eq, Bool.or_eq_true] at this
  refine ⟨this.1, this.2.imp id ?_⟩
  intro hk
  cases hc : c.coordSys with
  | none => rw [hc] at hk; cases hk
  | some k => rw [hc] at hk; exact ⟨k, rfl, by simpa using hk⟩

/-- Selecting a coordinate system: it becomes current, the absolute position, range and offsets
stay, and the work position is the absolute position minus the selected system's offset minus the
temporary offset. -/
theorem C42_select (m : Machine) (hm : m.WF) (f : ℕ → Position) (hs : m.state.systems = .dict f)
    (g : GCode) (hg : GOK g) (k : ℕ) (hgr : g.cls.group = some 12) (hk : g.cls.coordSys = some k) :
    ∃ m' p, m.process g = (m', none) ∧ m'.state.cur = k ∧ m'.absPos = m.absPos ∧
      m'.rangeMin = m.rangeMin ∧ m'.rangeMax = m.rangeMax ∧ m'.state.systems = m.state.systems ∧
      m'.state.offset = m.state.offset ∧ m'.pos = .ok p ∧
      ∀ a, p.val a = m.absPos.val a - (f k).val a - m.state.offset.val a := by
  obtain ⟨hp, hk9⟩ := coord_group g.cls hgr
  have hk' : 1 ≤ k ∧ k ≤ 9 := by
    rcases hk9 with h | ⟨j, h, hj⟩
    · rw [h] at hk
      rw [show Cls.selectCoordinateSystem.coordSys = none by decide +kernel] at hk
      cases hk
    · rw [hk] at h; cases h; exact hj
  have hset : setIn m.mode g = Function.update m.mode 12 (some (copyOf g)) := by
    unfold setIn; rw [hgr]
  have hcur : (m.withMode (setIn m.mode g)).state.cur = k := by
    have : Mode.coordSystem (setIn m.mode g) = some (copyOf g) := by
      rw [hset]; unfold Mode.coordSystem; simp
    simp only [withMode, this]
    show g.cls.coordSys.getD 0 = k
    rw [hk]; rfl
  refine ⟨m.withMode (setIn m.mode g), _, ?_, hcur, rfl, rfl, rfl, rfl, rfl,
    pos_ok _ (withMode_wf m hm _) (not_bad_of_dict (f := f) hs), ?_⟩
  · rw [process_eq m g hg]; unfold effect; rw [hp]
  · intro a
    have : (m.withMode (setIn m.mode g)).sysOff a = (f k).val a := by
      have hs' : (m.withMode (setIn m.mode g)).state.systems = .dict f := hs
      unfold sysOff
      rw [hs', hcur]
      simp [hk']
    simp only [this]
    rfl

theorem moves_mode (cs : Coords) (n : ℕ) (m : Machine) (hm : m.WF) :
    (m.moves cs n).1.mode = m.mode ∧ (m.moves cs n).1.state = m.state := by
  induction n generalizing m with
  | zero => exact ⟨rfl, rfl⟩
  | succ n ih =>
    unfold moves andThen
    rcases move_cases m hm cs with ⟨v, hv, -, h⟩ | ⟨e, h⟩
    · rw [h]; exact ih _ (goto_wf m hm v hv)
    · rw [h]; exact ⟨rfl, rfl⟩

theorem effect_mode (m : Machine) (hm : m.WF) (g : GCode) :
    ((m.effect g).1.mode = m.mode ∨ (m.effect g).1.mode = Function.update m.mode 1 none) ∧
      (m.effect g).1.state = m.state := by
  unfold effect
  cases g.cls.proc with
  | nothing => exact ⟨.inl rfl, rfl⟩
  | motion =>
    simp only; rw [← moves_one]
    exact ⟨.inl (moves_mode _ 1 m hm).1, (moves_mode _ 1 m hm).2⟩
  | rapid =>
    simp only; rw [← moves_one]
    exact ⟨.inl (moves_mode _ 1 m hm).1, (moves_mode _ 1 m hm).2⟩
  | cancel => exact ⟨.inr rfl, rfl⟩
  | canned =>
    simp only
    cases m.cannedCoords g with
    | error e => exact ⟨.inl rfl, rfl⟩
    | ok cs =>
      simp only
      cases loopCount g with
      | error e => exact ⟨.inl rfl, rfl⟩
      | ok n => exact ⟨.inl (moves_mode cs n m hm).1, (moves_mode cs n m hm).2⟩

theorem process_synced (m : Machine) (hm : m.WF) (g : GCode) (hg : GOK g) : Synced (m.process g).1 := by
  rw [process_eq m g hg]
  have h := effect_mode (m.withMode (setIn m.mode g)) (withMode_wf m hm _) g
  have hs := withMode_synced m (setIn m.mode g)
  intro x hx
  rw [h.2]
  apply hs x
  rcases h.1 with h | h <;> rw [h] at hx <;> exact hx

theorem all_synced (gs : List GCode) (hg : ∀ g ∈ gs, GOK g) (m : Machine) (hm : m.WF) (hs : Synced m) :
    Synced (m.processAll gs).1 := by
  induction gs generalizing m with
  | nil => exact hs
  | cons g gs ih =>
    have h1 := process_synced m hm g (hg g List.mem_cons_self)
    have h2 := (path_process m hm g (hg g List.mem_cons_self)).wf hm
    unfold processAll andThen
    rcases h : m.process g with ⟨m', _ | e⟩
    · rw [h] at h1 h2
      exact ih (fun x hx => hg x (List.mem_cons_of_mem _ hx)) m' h2 h1
    · rw [h] at h1; exact h1

theorem block_synced (m : Machine) (hm : m.WF) (hs : Synced m) (gs : List GCode) (mp : List Word)
    (hg : ∀ g ∈ gs, GOK g) : Synced (m.processGcodes gs mp).1 := by
  unfold processGcodes
  cases h : m.modalGcode mp with
  | error e => exact hs
  | ok og => exact all_synced _ (sort_gok hg (fun g hog => modalGcode_gok (by rw [h, hog]))) m hm hs

theorem call_synced (m : Machine) (hm : m.WF) (hs : Synced m) (c : Call)
    (hc : c.OK m.axes m.absPos.unit) : Synced (c.run m).1 := by
  cases c with
  | gcode g => exact process_synced m hm g hc
  | gcodes gs mp => exact block_synced m hm hs gs mp hc
  | str t =>
    simp only [Call.run, processStr, processBlock]
    cases h : Line.ofText t with
    | error e => exact hs
    | ok l => exact block_synced m hm hs _ _ (line_gok h)
  | setMode gs =>
    simp only [Call.run]
    rw [Machine.setMode_eq m gs hc]
    exact withMode_synced m _
  | moveTo cs =>
    simp only [Call.run]
    rcases move_cases m hm cs with ⟨v, hv, -, h⟩ | ⟨e, h⟩ <;> rw [h] <;> exact hs
  | setPos p =>
    simp only [Call.run]
    by_cases hb : m.BadSys
    · rw [setPos_bad m hb]; exact hs
    · rw [setPos_ok m hm hb p hc.1 hc.2.1]; exact hs

/-- After any history (exceptions included) the current coordinate system is the one in the mode,
if it was at the start. -/
theorem C42_history (cs : List Call) (m : Machine) (hm : m.WF) (hs : Synced m)
    (hc : ∀ c ∈ cs, c.OK m.axes m.absPos.unit) :
    Synced (Call.runAll m cs) ∧ (Call.runAll m cs).WF ∧
      (Call.runAll m cs).state.systems = m.state.systems ∧
      (Call.runAll m cs).state.offset = m.state.offset := by
  have hp := path_calls cs m hm hc
  refine ⟨?_, hp.wf hm, hp.frame.systems, hp.frame.offset⟩
  clear hp
  induction cs generalizing m with
  | nil => exact hs
  | cons c cs ih =>
    have hp := path_call m hm c (hc c List.mem_cons_self)
    refine ih _ (hp.wf hm) (call_synced m hm hs c (hc c List.mem_cons_self)) ?_
    intro d hd
    rw [hp.frame.axes, hp.frame.unit]
    exact hc d (List.mem_cons_of_mem _ hd)

/-- New machines are synchronised with their (default or empty) mode. -/
theorem C42_new : Synced new ∧ Synced newNull := by
  constructor
  · have h : (match new.mode.coordSystem with
        | none => true
        | some g => decide (new.state.cur = g.cls.coordSys.getD 0)) = true := by decide +kernel
    intro g hg
    rw [hg] at h
    simpa using h
  · intro g hg; cases hg

example : let m := (sampleMachine.process ⟨.selectCoordinateSystem3, ⟨'G', .num 56⟩, [], false⟩).1
    (m.state.cur, m.absPos.val .X, m.pos.map (fun p => p.val .X)) = (3, 0, .ok (-31)) := by
  decide +kernel

end Pygcode
