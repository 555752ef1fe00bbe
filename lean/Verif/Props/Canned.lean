import Verif.Props.MachineMove

/-!
# Canned cycles on the machine (C45)
-/

namespace Pygcode
open Props Machine

theorem lookup_filter (cs : List (Axis × ℚ)) (n a : Axis) :
    Position.lookup (cs.filter (fun c => c.1 != n)) a = if a = n then none else Position.lookup cs a := by
  unfold Position.lookup
  rw [List.find?_filter]
  by_cases h : a = n
  · subst h
    rw [if_pos rfl, Option.map_eq_none_iff, List.find?_eq_none]
    intro c _
    by_cases hc : c.1 = a <;> simp [hc]
  · rw [if_neg h]
    congr 2
    funext c
    by_cases hc : c.1 = a
    · simp [hc, h]
    · simp [hc]

/-- Coordinates with that of axis `n` set to `r` (replaced in place, or appended). -/
def setCoord (cs : List (Axis × ℚ)) (n : Axis) (r : ℚ) : List (Axis × ℚ) :=
  if cs.any (fun c => c.1 == n) then cs.map (fun c => if c.1 = n then (n, r) else c) else cs ++ [(n, r)]

theorem lookup_setCoord (cs : List (Axis × ℚ)) (n : Axis) (r : ℚ) (a : Axis) :
    Position.lookup (setCoord cs n r) a = if a = n then some r else Position.lookup cs a := by
  unfold setCoord Position.lookup
  by_cases h : cs.any (fun c => c.1 == n) = true
  · rw [if_pos h]
    by_cases ha : a = n
    · subst ha
      rw [if_pos rfl]
      induction cs with
      | nil => simp at h
      | cons c cs ih =>
        by_cases hc : c.1 = a
        · simp [hc]
        · simp only [List.map_cons, hc, if_false]
          rw [List.find?_cons_of_neg (by simpa using hc)]
          apply ih
          simpa [hc] using h
    · rw [if_neg ha]
      clear h
      induction cs with
      | nil => rfl
      | cons c cs ih =>
        by_cases hc : c.1 = n
        · have h1 : ¬ c.1 = a := fun h => ha (h ▸ hc)
          simp only [List.map_cons, hc, if_true]
          rw [List.find?_cons_of_neg (by simpa using fun h : n = a => ha h.symm),
            List.find?_cons_of_neg (by simpa using h1)]
          exact ih
        · simp only [List.map_cons, hc, if_false, List.find?_cons]
          cases (c.1 == a)
          · exact ih
          · rfl
  · rw [if_neg h]
    have hn : ∀ c ∈ cs, c.1 ≠ n := fun c hc hcn => h (List.any_eq_true.2 ⟨c, hc, by simpa using hcn⟩)
    rw [List.find?_append]
    by_cases ha : a = n
    · subst ha
      have : cs.find? (fun c => c.1 == a) = none := by
        rw [List.find?_eq_none]; intro c hc; simpa using hn c hc
      rw [this, if_pos rfl]; simp
    · rw [if_neg ha]
      have : ¬ n = a := fun h => ha h.symm
      simp [this]

theorem setCoord_axes (cs : List (Axis × ℚ)) (n : Axis) (r : ℚ) (hnd : (cs.map Prod.fst).Nodup) :
    ((setCoord cs n r).map Prod.fst).Nodup ∧
      ∀ c ∈ setCoord cs n r, c.1 = n ∨ ∃ d ∈ cs, d.1 = c.1 := by
  unfold setCoord
  by_cases h : cs.any (fun c => c.1 == n) = true
  · rw [if_pos h]
    constructor
    · have : (cs.map (fun c => if c.1 = n then (n, r) else c)).map Prod.fst = cs.map Prod.fst := by
        rw [List.map_map]
        apply List.map_congr_left
        intro c _
        by_cases hc : c.1 = n <;> simp [hc]
      rw [this]; exact hnd
    · intro c hc
      obtain ⟨d, hd, rfl⟩ := List.mem_map.1 hc
      by_cases hdn : d.1 = n
      · left; simp [hdn]
      · right; exact ⟨d, hd, by simp [hdn]⟩
  · rw [if_neg h]
    have hn : ∀ c ∈ cs, c.1 ≠ n := fun c hc hcn => h (List.any_eq_true.2 ⟨c, hc, by simpa using hcn⟩)
    constructor
    · rw [List.map_append, List.nodup_append]
      refine ⟨hnd, by simp, ?_⟩
      intro x hx y hy
      obtain ⟨c, hc, rfl⟩ := List.mem_map.1 hx
      simp at hy; subst hy
      exact hn c hc
    · intro c hc
      rcases List.mem_append.1 hc with hc | hc
      · exact .inr ⟨c, hc, rfl⟩
      · left; simp at hc; rw [hc]

/-- Repeated absolute moves are one move. -/
theorem moves_abs (m : Machine) (hm : m.WF) (hb : ¬ m.BadSys) (hi : m.incremental = false)
    (cs : List (Axis × ℚ)) (hnd : (cs.map Prod.fst).Nodup) (hax : ∀ c ∈ cs, c.1 ∈ m.axes) (n : ℕ) :
    m.moves (cs.map (fun c => (c.1, some c.2))) (n + 1) = (m.goto (m.target cs), none) := by
  have htz : ∀ a ∉ m.axes, m.target cs a = 0 := by
    intro a ha
    unfold target
    have : Position.lookup cs a = none := by
      unfold Position.lookup
      rw [Option.map_eq_none_iff, List.find?_eq_none]
      intro c hc
      simpa using fun h : c.1 = a => ha (h ▸ hax c hc)
    rw [this]; exact abs_outside m hm a ha
  have hmove := move_ok m hm hb cs hnd hax
  induction n with
  | zero => rw [moves_one]; exact hmove
  | succ n ih =>
    have hfix : ∀ k, (m.goto (m.target cs)).moves (cs.map (fun c => (c.1, some c.2))) k =
        (m.goto (m.target cs), none) := by
      intro k
      induction k with
      | zero => rfl
      | succ k ihk =>
        have h2 := move_ok (m.goto (m.target cs)) (goto_wf m hm _ htz) hb cs hnd hax
        rw [target_idem m (m.goto (m.target cs)) cs hi hi rfl (fun _ => rfl) rfl, goto_goto] at h2
        rw [moves, h2]
        exact ihk
    rw [moves, hmove]
    exact hfix (n + 1)

/-- Repeated incremental moves add up. -/
theorem moves_inc (cs : List (Axis × ℚ)) (hnd : (cs.map Prod.fst).Nodup) (n : ℕ) (m : Machine) (hm : m.WF)
    (hb : ¬ m.BadSys) (hi : m.incremental = true) (hax : ∀ c ∈ cs, c.1 ∈ m.axes) :
    ∃ m', m.moves (cs.map (fun c => (c.1, some c.2))) n = (m', none) ∧ m'.WF ∧ m'.mode = m.mode ∧
      m'.state = m.state ∧ m'.axes = m.axes ∧
      ∀ a, m'.absPos.val a = m.absPos.val a + n * (Position.lookup cs a).getD 0 := by
  induction n generalizing m with
  | zero => exact ⟨m, rfl, hm, rfl, rfl, rfl, by simp⟩
  | succ n ih =>
    have htz : ∀ a ∉ m.axes, m.target cs a = 0 := by
      intro a ha
      unfold target
      have : Position.lookup cs a = none := by
        unfold Position.lookup
        rw [Option.map_eq_none_iff, List.find?_eq_none]
        intro c hc
        simpa using fun h : c.1 = a => ha (h ▸ hax c hc)
      rw [this]; exact abs_outside m hm a ha
    obtain ⟨m', h1, h2, h3, h4, h5, h6⟩ := ih (m.goto (m.target cs)) (goto_wf m hm _ htz) hb hi hax
    refine ⟨m', ?_, h2, h3, h4, h5, ?_⟩
    · rw [moves, move_ok m hm hb cs hnd hax]; exact h1
    · intro a
      rw [h6 a]
      show m.target cs a + _ = _
      have : m.target cs a = m.absPos.val a + (Position.lookup cs a).getD 0 := by
        unfold target
        rw [hi]
        cases Position.lookup cs a <;> simp
      rw [this]
      push_cast
      ring

/-- Table: canned cycles take the parameters L and R, and every class with the canned-cycle effect
is in the motion group. -/
theorem canned_params (c : Cls) (h : c.proc = .canned) (hk : c ≠ .cannedCycle) :
    c.params.contains 'L' = true ∧ c.params.contains 'R' = true := by
  have := Cls.forall_of_all (p := fun c => !(c.proc == .canned) || c == .cannedCycle ||
    (c.params.contains 'L' && c.params.contains 'R')) (by decide +kernel) c
  simpa [h, hk] using this

/-- The number of repetitions (the property text): L, or 1 if absent or not positive. -/
def loops (g : GCode) : ℕ :=
  match g.num? 'L' with
  | none => 1
  | some q => if q ≤ 0 then 1 else (truncQ q).toNat

theorem loopCount_eq (g : GCode) (h : g.cls.params.contains 'L' = true) :
    loopCount g = .ok (loops g) := by
  unfold loopCount loops GCode.get
  rw [if_pos h]
  simp only
  cases g.num? 'L' with
  | none => rfl
  | some q => simp only; split_ifs <;> rfl

/-- The canned-cycle return mode is G99. -/
def ReturnsToR (md : Mode) : Prop :=
  ∃ r, md.cannedReturn = some r ∧ r.cls.isSub .cannedCycleReturnToR = true

/-- Coordinates of a canned cycle on a plane with normal axis `n`: those given, without that of `n`
(or with R instead, in G99 mode). -/
theorem cannedCoords_eq (m : Machine) (g : GCode) (h : g.cls.params.contains 'R' = true) (pl : GCode)
    (hpl : m.mode.plane = some pl) (n : Axis) (hn : pl.cls.normalAxis.bind Axis.ofLetter = some n) :
    (¬ ReturnsToR m.mode → m.cannedCoords g =
      .ok (((coords m.axes g).filter (fun c => c.1 != n)).map (fun c => (c.1, some c.2)))) ∧
    (ReturnsToR m.mode → ∀ r, g.num? 'R' = some r → m.cannedCoords g =
      .ok ((setCoord (coords m.axes g) n r).map (fun c => (c.1, some c.2)))) := by
  have hget : ∃ v, g.get 'R' = .ok v := ⟨_, by unfold GCode.get; rw [if_pos h]⟩
  obtain ⟨v, hget⟩ := hget
  constructor
  · intro hr
    unfold cannedCoords
    rw [hpl]
    cases hc : m.mode.cannedReturn with
    | none =>
      simp only [hn, Bool.false_eq_true, if_false]
      rw [List.filter_map]
      rfl
    | some r =>
      have hx : r.cls.isSub .cannedCycleReturnToR = false := by
        by_contra hx
        exact hr ⟨r, hc, by simpa using hx⟩
      simp only [hx, hn, Bool.false_eq_true, if_false]
      rw [List.filter_map]
      rfl
  · rintro ⟨r₀, hc, hsub⟩ r hR
    unfold cannedCoords
    rw [hpl]
    simp only [hc, hsub, if_true, hget, hn, hR]
    unfold setCoord
    have hany : ((coords m.axes g).map (fun c => (c.1, some c.2))).any (fun c => c.1 == n) =
        (coords m.axes g).any (fun c => c.1 == n) := by
      rw [List.any_map]; rfl
    rw [hany]
    split_ifs with hx
    · congr 1
      rw [List.map_map, List.map_map]
      apply List.map_congr_left
      intro c _
      by_cases hcn : c.1 = n <;> simp [hcn]
    · simp

noncomputable instance (md : Mode) : Decidable (ReturnsToR md) := Classical.propDecidable _

theorem setIn_other (md : Mode) (g : GCode) (h : g.cls.group = some 1) (k : ℕ) (hk : k ≠ 1) :
    setIn md g k = md k := by
  rw [setIn_motion md g h]; exact Function.update_of_ne hk _ _

/-- What a canned cycle does on a machine, in terms of coordinates: general form. -/
theorem canned_process (m : Machine) (hs : Synced m) (g : GCode) (hg : GOK g)
    (hp : g.cls.proc = .canned) (hk : g.cls ≠ .cannedCycle) (pl : GCode) (hpl : m.mode.plane = some pl)
    (n : Axis) (hn : pl.cls.normalAxis.bind Axis.ofLetter = some n) (hax : n ∈ m.axes)
    (given : Option ℚ) (hgiven : (¬ ReturnsToR m.mode ∧ given = none) ∨
      (ReturnsToR m.mode ∧ given = g.num? 'R' ∧ given ≠ none)) :
    ∃ cs : List (Axis × ℚ), (cs.map Prod.fst).Nodup ∧ (∀ c ∈ cs, c.1 ∈ m.axes) ∧
      (∀ a, Position.lookup cs a = if a = n then given else if a ∈ m.axes then g.num? a.letter else none) ∧
      m.process g = ({ m with mode := Function.update m.mode 1 (some (copyOf g)) } : Machine).moves
        (cs.map (fun c => (c.1, some c.2))) (loops g) := by
  have hgr : g.cls.group = some 1 := moving_group _ (by tauto)
  obtain ⟨hL, hR⟩ := canned_params g.cls hp hk
  have hproc : m.process g =
      ({ m with mode := Function.update m.mode 1 (some (copyOf g)) } : Machine).effect g := by
    rw [process_eq m g hg, setIn_motion m.mode g hgr, withMode_motion m hs]
  have heff : ∀ cs, Machine.cannedCoords { m with mode := Function.update m.mode 1 (some (copyOf g)) } g = .ok cs →
      m.process g = ({ m with mode := Function.update m.mode 1 (some (copyOf g)) } : Machine).moves cs (loops g) := by
    intro cs hcs
    rw [hproc]
    unfold effect
    rw [hp]
    simp only [hcs, loopCount_eq g hL]
  have hcc := cannedCoords_eq { m with mode := Function.update m.mode 1 (some (copyOf g)) } g hR pl hpl n hn
  have hret : ReturnsToR (Function.update m.mode 1 (some (copyOf g))) ↔ ReturnsToR m.mode := Iff.rfl
  have hnd := coords_nodup m.axes g hg
  have hcax := coords_axes m.axes g
  rcases hgiven with ⟨hr, rfl⟩ | ⟨hr, hgv, hne⟩
  · refine ⟨(coords m.axes g).filter (fun c => c.1 != n), ?_, ?_, ?_, heff _ (hcc.1 (mt hret.1 hr))⟩
    · exact hnd.sublist (List.Sublist.map _ List.filter_sublist)
    · exact fun c hc => hcax c (List.mem_of_mem_filter hc)
    · intro a; rw [lookup_filter, coords_lookup]
  · obtain ⟨r, rfl⟩ := Option.ne_none_iff_exists'.1 hne
    obtain ⟨h1, h2⟩ := setCoord_axes (coords m.axes g) n r hnd
    refine ⟨setCoord (coords m.axes g) n r, h1, ?_, ?_, heff _ (hcc.2 (hret.2 hr) r hgv.symm)⟩
    · intro c hc
      rcases h2 c hc with h | ⟨d, hd, h⟩
      · exact h ▸ hax
      · exact h ▸ hcax d hd
    · intro a; rw [lookup_setCoord, coords_lookup]

/-- Table: normal axes of the planes (G17, G18, G19). -/
theorem C45_normals :
    Cls.selectXYPlane.normalAxis.bind Axis.ofLetter = some .Z ∧
    Cls.selectZXPlane.normalAxis.bind Axis.ofLetter = some .Y ∧
    Cls.selectYZPlane.normalAxis.bind Axis.ofLetter = some .X := by decide +kernel

/-- Absolute mode: whatever the number of loops, the machine ends at the given coordinates of the
plane (others unchanged), with the normal axis unchanged (G98) or at R (G99). -/
theorem C45_absolute (m : Machine) (hm : m.WF) (hb : ¬ m.BadSys) (hs : Synced m)
    (hab : ∀ d, m.mode.distance = some d → d.cls.isSub .incrementalDistanceMode = false)
    (g : GCode) (hg : GOK g) (hp : g.cls.proc = .canned) (hk : g.cls ≠ .cannedCycle)
    (hl : 1 ≤ loops g) (pl : GCode) (hpl : m.mode.plane = some pl)
    (n : Axis) (hn : pl.cls.normalAxis.bind Axis.ofLetter = some n) (hax : n ∈ m.axes)
    (hR : ReturnsToR m.mode → g.num? 'R' ≠ none) :
    ∃ m' p p', m.process g = (m', none) ∧ m.pos = .ok p ∧ m'.pos = .ok p' ∧
      (∀ a ∈ m.axes, a ≠ n → ∀ v, g.num? a.letter = some v → p'.val a = v) ∧
      (∀ a ∈ m.axes, a ≠ n → g.num? a.letter = none → p'.val a = p.val a) ∧
      (¬ ReturnsToR m.mode → p'.val n = p.val n) ∧
      (ReturnsToR m.mode → g.num? 'R' = some (p'.val n)) := by
  have hinc : m.incremental = false := by
    unfold incremental
    cases h : m.mode.distance with
    | none => rfl
    | some d => exact hab d h
  by_cases hr : ReturnsToR m.mode
  all_goals
    obtain ⟨cs, hnd, hcax, hlook, hproc⟩ := canned_process m hs g hg hp hk pl hpl n hn hax
      (if ReturnsToR m.mode then g.num? 'R' else none)
      (by by_cases h : ReturnsToR m.mode
          · exact .inr ⟨h, by rw [if_pos h], by rw [if_pos h]; exact hR h⟩
          · exact .inl ⟨h, by rw [if_neg h]⟩)
    set m₁ : Machine := { m with mode := Function.update m.mode 1 (some (copyOf g)) } with hm₁
    have hm₁wf : m₁.WF := ⟨hm.abs, hm.absWF, hm.sys, hm.off, hm.offWF, hm.lo, hm.hi⟩
    obtain ⟨k, hk'⟩ : ∃ k, loops g = k + 1 := ⟨loops g - 1, by omega⟩
    rw [hk', moves_abs m₁ hm₁wf hb hinc cs hnd hcax k] at hproc
    have htz : ∀ a ∉ m₁.axes, m₁.target cs a = 0 := by
      intro a ha
      unfold target
      have hne : a ≠ n := fun h => ha (h ▸ hax)
      have : Position.lookup cs a = none := by
        rw [hlook a, if_neg hne, if_neg ha]
      rw [this]; exact abs_outside m hm a ha
    have hwf := goto_wf m₁ hm₁wf _ htz
    refine ⟨_, _, _, hproc, pos_ok m hm hb, pos_ok _ hwf hb, ?_, ?_, ?_, ?_⟩
    · intro a ha hne v hv
      show m₁.target cs a - m.sysOff a - m.state.offset.val a = v
      have hl' : Position.lookup cs a = some v := by rw [hlook a, if_neg hne, if_pos ha, hv]
      have hi₁ : m₁.incremental = false := hinc
      have ho : m₁.sysOff a = m.sysOff a := rfl
      simp only [target, hl', hi₁, ho]
      simp [hm₁]
    · intro a ha hne hv
      show m₁.target cs a - m.sysOff a - m.state.offset.val a = m.absPos.val a - m.sysOff a - m.state.offset.val a
      have hl' : Position.lookup cs a = none := by rw [hlook a, if_neg hne, if_pos ha, hv]
      simp only [target, hl', hm₁]
    · intro hnr
      first
      | exact absurd hr hnr
      | show m₁.target cs n - m.sysOff n - m.state.offset.val n = m.absPos.val n - m.sysOff n - m.state.offset.val n
        have hl' : Position.lookup cs n = none := by rw [hlook n, if_pos rfl, if_neg hnr]
        simp only [target, hl', hm₁]
    · intro hyr
      show g.num? 'R' = some (m₁.target cs n - m.sysOff n - m.state.offset.val n)
      have hl' : Position.lookup cs n = g.num? 'R' := by rw [hlook n, if_pos rfl, if_pos hyr]
      obtain ⟨r, hr'⟩ := Option.ne_none_iff_exists'.1 (hR hyr)
      have hi₁ : m₁.incremental = false := hinc
      have ho : m₁.sysOff n = m.sysOff n := rfl
      rw [hr'] at hl'
      simp only [target, hl', hi₁, ho, hr']
      simp [hm₁]

/-- Incremental mode: the coordinates are added once per loop. -/
theorem C45_incremental (m : Machine) (hm : m.WF) (hb : ¬ m.BadSys) (hs : Synced m)
    (d : GCode) (hd : m.mode.distance = some d) (hinc : d.cls.isSub .incrementalDistanceMode = true)
    (g : GCode) (hg : GOK g) (hp : g.cls.proc = .canned) (hk : g.cls ≠ .cannedCycle)
    (pl : GCode) (hpl : m.mode.plane = some pl)
    (n : Axis) (hn : pl.cls.normalAxis.bind Axis.ofLetter = some n) (hax : n ∈ m.axes)
    (hR : ReturnsToR m.mode → g.num? 'R' ≠ none) :
    ∃ m' p p', m.process g = (m', none) ∧ m.pos = .ok p ∧ m'.pos = .ok p' ∧
      (∀ a ∈ m.axes, a ≠ n → p'.val a = p.val a + loops g * given g a) ∧
      (¬ ReturnsToR m.mode → p'.val n = p.val n) ∧
      (ReturnsToR m.mode → p'.val n = p.val n + loops g * (g.num? 'R').getD 0) := by
  have hi : m.incremental = true := by unfold incremental; rw [hd]; exact hinc
  obtain ⟨cs, hnd, hcax, hlook, hproc⟩ := canned_process m hs g hg hp hk pl hpl n hn hax
    (if ReturnsToR m.mode then g.num? 'R' else none)
    (by by_cases h : ReturnsToR m.mode
        · exact .inr ⟨h, by rw [if_pos h], by rw [if_pos h]; exact hR h⟩
        · exact .inl ⟨h, by rw [if_neg h]⟩)
  obtain ⟨m', h1, h2, h3, h4, h5, h6⟩ := moves_inc cs hnd (loops g)
    { m with mode := Function.update m.mode 1 (some (copyOf g)) }
    ⟨hm.abs, hm.absWF, hm.sys, hm.off, hm.offWF, hm.lo, hm.hi⟩ hb hi hcax
  have hb' : ¬ m'.BadSys := by unfold BadSys; rw [h4]; exact hb
  have hso : ∀ a, m'.sysOff a = m.sysOff a := by intro a; unfold sysOff; rw [h4]
  have hst : m'.state = m.state := h4
  have h6' : ∀ a, m'.absPos.val a = m.absPos.val a + loops g * (Position.lookup cs a).getD 0 := h6
  refine ⟨m', _, _, hproc.trans h1, pos_ok m hm hb, pos_ok m' h2 hb', ?_, ?_, ?_⟩
  · intro a ha hne
    simp only [h6', hso, hst]
    rw [hlook a, if_neg hne, if_pos ha]
    unfold given
    ring
  · intro hr
    simp only [h6', hso, hst]
    rw [hlook n, if_pos rfl, if_neg hr]
    simp
  · intro hr
    simp only [h6', hso, hst]
    rw [hlook n, if_pos rfl, if_pos hr]
    ring

/-- G99 without R: `TypeError`, and the machine has not moved. -/
theorem C45_missing_R (m : Machine) (hm : m.WF) (hb : ¬ m.BadSys) (hs : Synced m)
    (g : GCode) (hg : GOK g) (hp : g.cls.proc = .canned) (hk : g.cls ≠ .cannedCycle)
    (hl : 1 ≤ loops g) (pl : GCode) (hpl : m.mode.plane = some pl)
    (n : Axis) (hn : pl.cls.normalAxis.bind Axis.ofLetter = some n) (hax : n ∈ m.axes)
    (hr : ReturnsToR m.mode) (hR : g.num? 'R' = none) :
    (m.process g).2 = some .type ∧ (m.process g).1.absPos = m.absPos ∧
      (m.process g).1.rangeMin = m.rangeMin ∧ (m.process g).1.rangeMax = m.rangeMax := by
  have hgr : g.cls.group = some 1 := moving_group _ (by tauto)
  obtain ⟨hL, hRp⟩ := canned_params g.cls hp hk
  rw [process_eq m g hg, setIn_motion m.mode g hgr, withMode_motion m hs]
  set m₁ : Machine := { m with mode := Function.update m.mode 1 (some (copyOf g)) } with hm₁
  have hm₁wf : m₁.WF := ⟨hm.abs, hm.absWF, hm.sys, hm.off, hm.offWF, hm.lo, hm.hi⟩
  obtain ⟨k, hk'⟩ : ∃ k, loops g = k + 1 := ⟨loops g - 1, by omega⟩
  have key : ∀ cs : Coords, (∀ c ∈ cs, c.1 ∈ m.axes) → (n, none) ∈ cs → m₁.move cs = (m₁, some .type) := by
    intro cs hcs hmem
    unfold move
    rw [pos_ok m₁ hm₁wf hb]
    have hany : cs.any (fun c => c.2.isNone) = true := List.any_eq_true.2 ⟨_, hmem, rfl⟩
    by_cases hi : m₁.incremental = true
    · have : (cs.filter (fun c => decide (c.1 ∈ m₁.axes))) = cs := by
        rw [List.filter_eq_self]; intro c hc; simpa using hcs c hc
      simp only [hi, if_true, this, hany]
    · have : cs.any (fun c => decide (c.1 ∉ m₁.axes)) = false := by
        rw [List.any_eq_false]; intro c hc; simpa using hcs c hc
      simp only [hi, Bool.false_eq_true, if_false, this, hany, if_true]
  have hcoords : ∃ cs : Coords, m₁.cannedCoords g = .ok cs ∧ (∀ c ∈ cs, c.1 ∈ m.axes) ∧ (n, none) ∈ cs := by
    obtain ⟨r₀, hc, hsub⟩ := hr
    have hc' : m₁.mode.cannedReturn = some r₀ := hc
    have hpl' : m₁.mode.plane = some pl := hpl
    have hget : g.get 'R' = .ok ((g.param 'R').map Word.val) := by unfold GCode.get; rw [if_pos hRp]
    unfold cannedCoords
    rw [hpl']
    simp only [hc', hsub, if_true, hget, hn, hR]
    have hbase : ∀ c ∈ (coords m₁.axes g).map (fun c => (c.1, some c.2)), c.1 ∈ m.axes := by
      intro c hc
      obtain ⟨d, hd, rfl⟩ := List.mem_map.1 hc
      exact coords_axes m.axes g d hd
    split_ifs with hx
    · refine ⟨_, rfl, ?_, ?_⟩
      · intro c hc
        obtain ⟨d, hd, rfl⟩ := List.mem_map.1 hc
        by_cases hdn : d.1 = n
        · simp only [hdn, if_true]; exact hax
        · simp only [hdn, if_false]; exact hbase d hd
      · obtain ⟨d, hd, hdn⟩ := List.any_eq_true.1 hx
        exact List.mem_map.2 ⟨d, hd, by simp [beq_iff_eq.1 hdn]⟩
    · refine ⟨_, rfl, ?_, by simp⟩
      intro c hc
      rcases List.mem_append.1 hc with hc | hc
      · exact hbase c hc
      · simp at hc; rw [hc]; exact hax
  obtain ⟨cs, h1, h2, h3⟩ := hcoords
  have : m₁.effect g = (m₁, some .type) := by
    unfold effect
    rw [hp]
    simp only [h1, loopCount_eq g hL, hk']
    rw [moves, key cs h2 h3]
    rfl
  rw [this]
  exact ⟨rfl, rfl, rfl, rfl⟩

/-- `G81 X4 Z-1 R2 L3`. -/
def sampleCycle : GCode :=
  ⟨.drillingCycle, ⟨'G', .num 81⟩, [⟨'X', .num 4⟩, ⟨'Z', .num (-1)⟩, ⟨'R', .num 2⟩, ⟨'L', .num 3⟩], false⟩

example : loops sampleCycle = 3 := by decide +kernel
example : loops { sampleCycle with params := [⟨'L', .num 0⟩] } = 1 := by decide +kernel
example : ((sampleMachine.process sampleCycle).1.pos).map (fun p => (p.val .X, p.val .Z)) = .ok (4, -2) := by
  decide +kernel
example : (((sampleMachine.process ⟨.cannedCycleReturnToR, ⟨'G', .num 99⟩, [], false⟩).1.process
    sampleCycle).1.pos).map (fun p => (p.val .X, p.val .Z)) = .ok (4, 2) := by decide +kernel
example : (((sampleMachine.process ⟨.incrementalDistanceMode, ⟨'G', .num 91⟩, [], false⟩).1.process
    sampleCycle).1.pos).map (fun p => (p.val .X, p.val .Z)) = .ok (-11 + 12, -2) := by decide +kernel

end Pygcode
