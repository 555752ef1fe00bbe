import Verif.Props.Position

/-!
# Facts about single moves of the machine
-/

namespace Pygcode

namespace Machine

/-- Consistent machine: every position in it has the machine's axes (the range corners at least
those), and nothing outside its axes. -/
structure WF (m : Machine) : Prop where
  abs : m.absPos.axes = m.axes
  absWF : m.absPos.WF
  sys : ∀ f, m.state.systems = .dict f → ∀ k, (f k).axes = m.axes ∧ (f k).WF
  off : m.state.offset.axes = m.axes
  offWF : m.state.offset.WF
  lo : m.axes ⊆ m.rangeMin.axes
  hi : m.axes ⊆ m.rangeMax.axes

/-- Offset of the current coordinate system along an axis. -/
def sysOff (m : Machine) (a : Axis) : ℚ :=
  match m.state.systems with
  | .dict f => if 1 ≤ m.state.cur ∧ m.state.cur ≤ 9 then (f m.state.cur).val a else 0
  | .keyList => 0

/-- The copied state whose list has no index 9 (machine.py:245, 252-253). -/
def BadSys (m : Machine) : Prop := m.state.systems = .keyList ∧ m.state.cur = 9

/-- The machine moved to absolute coordinates `v`, with the range extended. -/
def goto (m : Machine) (v : Axis → ℚ) : Machine :=
  { m with
    absPos := ⟨m.axes, m.absPos.unit, v⟩
    rangeMin := ⟨Axis.all, m.absPos.unit, fun a => if a ∈ m.axes then Min.min (v a) (m.rangeMin.val a) else 0⟩
    rangeMax := ⟨Axis.all, m.absPos.unit, fun a => if a ∈ m.axes then Max.max (v a) (m.rangeMax.val a) else 0⟩ }

theorem coordOffset_bad (m : Machine) (h : m.BadSys) : m.coordOffset = .error .index := by
  unfold coordOffset; rw [h.1]; simp [h.2]

theorem coordOffset_ok (m : Machine) (hm : m.WF) (h : ¬ m.BadSys) :
    ∃ o, m.coordOffset = .ok o ∧ o.axes = m.axes ∧ o.WF ∧ ∀ a, o.val a = m.sysOff a := by
  unfold coordOffset sysOff
  cases hs : m.state.systems with
  | dict f =>
    by_cases hc : 1 ≤ m.state.cur ∧ m.state.cur ≤ 9
    · simp only [hc, and_self, if_true]
      exact ⟨_, rfl, (hm.sys f hs _).1, (hm.sys f hs _).2, fun _ => rfl⟩
    · simp only [hc, if_false]
      exact ⟨_, rfl, rfl, fun _ _ => rfl, fun _ => rfl⟩
  | keyList =>
    have : m.state.cur ≠ 9 := fun h' => h ⟨hs, h'⟩
    simp only [this, if_false]
    exact ⟨_, rfl, rfl, fun _ _ => rfl, fun _ => rfl⟩

theorem sysOff_outside (m : Machine) (hm : m.WF) (a : Axis) (ha : a ∉ m.axes) : m.sysOff a = 0 := by
  unfold sysOff
  cases hs : m.state.systems with
  | dict f =>
    by_cases hc : 1 ≤ m.state.cur ∧ m.state.cur ≤ 9
    · simp only [hc, and_self, if_true]
      exact (hm.sys f hs _).2 a ((hm.sys f hs _).1 ▸ ha)
    · simp only [hc, if_false]
  | keyList => rfl

theorem off_outside (m : Machine) (hm : m.WF) (a : Axis) (ha : a ∉ m.axes) :
    m.state.offset.val a = 0 := hm.offWF a (hm.off ▸ ha)

theorem abs_outside (m : Machine) (hm : m.WF) (a : Axis) (ha : a ∉ m.axes) :
    m.absPos.val a = 0 := hm.absWF a (hm.abs ▸ ha)

theorem abs2work_ok (m : Machine) (hm : m.WF) (h : ¬ m.BadSys) (p : Position) (hp : p.axes = m.axes) :
    m.abs2work p = .ok ⟨m.axes, p.unit, fun a => p.val a - m.sysOff a - m.state.offset.val a⟩ := by
  obtain ⟨o, ho, ha, -, hv⟩ := coordOffset_ok m hm h
  unfold abs2work
  rw [ho]
  simp only [Position.sub, ha, hp, subset_refl, if_true, hm.off, hv]

theorem work2abs_ok (m : Machine) (hm : m.WF) (h : ¬ m.BadSys) (p : Position) (hp : p.axes = m.axes) :
    m.work2abs p = .ok ⟨m.axes, p.unit, fun a => p.val a + m.state.offset.val a + m.sysOff a⟩ := by
  obtain ⟨o, ho, ha, -, hv⟩ := coordOffset_ok m hm h
  unfold work2abs
  rw [ho]
  simp only [Position.add, ha, hp, if_true, hm.off, hv]

theorem pos_ok (m : Machine) (hm : m.WF) (h : ¬ m.BadSys) :
    m.pos = .ok ⟨m.axes, m.absPos.unit, fun a => m.absPos.val a - m.sysOff a - m.state.offset.val a⟩ :=
  abs2work_ok m hm h _ hm.abs

theorem pos_bad (m : Machine) (h : m.BadSys) : m.pos = .error .index := by
  unfold pos abs2work; rw [coordOffset_bad m h]

theorem setPos_bad (m : Machine) (h : m.BadSys) (p : Position) : m.setPos p = (m, some .index) := by
  unfold setPos work2abs; rw [coordOffset_bad m h]

theorem cmp_eq (key : ℚ → ℚ → ℚ) (a b : Position) : Position.cmp key a b =
    if a.axes ⊆ b.axes then
      .ok ⟨Axis.all, a.unit, fun x => if x ∈ a.axes then key (a.val x) (b.val x) else 0⟩
    else .error .attribute := by
  unfold Position.cmp Position.assignUnit
  simp

theorem setPos_ok (m : Machine) (hm : m.WF) (h : ¬ m.BadSys) (p : Position) (hp : p.axes = m.axes)
    (hu : p.unit = m.absPos.unit) :
    m.setPos p = (m.goto (fun a => p.val a + m.state.offset.val a + m.sysOff a), none) := by
  unfold setPos
  rw [work2abs_ok m hm h p hp]
  simp only [updateRange, Position.min, Position.max, cmp_eq, hm.lo, hm.hi, if_true, goto, hu]

theorem setPos_mk (m : Machine) (hm : m.WF) (h : ¬ m.BadSys) (v : Axis → ℚ) :
    m.setPos ⟨m.axes, m.absPos.unit, v⟩ =
      (m.goto (fun a => v a + m.state.offset.val a + m.sysOff a), none) :=
  setPos_ok m hm h _ rfl rfl

theorem goto_wf (m : Machine) (hm : m.WF) (v : Axis → ℚ) (hv : ∀ a ∉ m.axes, v a = 0) :
    (m.goto v).WF where
  abs := rfl
  absWF := hv
  sys := hm.sys
  off := hm.off
  offWF := hm.offWF
  lo := Finset.subset_univ _
  hi := Finset.subset_univ _

/-- `update` with known axes. -/
theorem update_eq (p : Position) (cs : List (Axis × ℚ)) (hnd : (cs.map Prod.fst).Nodup)
    (h : ∀ c ∈ cs, c.1 ∈ p.axes) :
    p.update cs = (⟨p.axes, p.unit, fun a => (Position.lookup cs a).getD (p.val a)⟩, none) := by
  obtain ⟨h1, h2, h3, h4, h5⟩ := (C28_update p cs hnd).1 h
  refine Prod.ext ?_ h1
  have : (p.update cs).1.val = fun a => (Position.lookup cs a).getD (p.val a) := by
    funext a
    by_cases ha : a ∈ cs.map Prod.fst
    · obtain ⟨c, hc, rfl⟩ := List.mem_map.1 ha
      rw [h2 c hc]
      have : Position.lookup cs c.1 = some c.2 := by
        unfold Position.lookup
        clear h1 h2 h3 h4 h5 h ha
        induction cs with
        | nil => simp at hc
        | cons d ds ih =>
          simp only [List.map_cons, List.nodup_cons] at hnd
          rcases List.mem_cons.1 hc with rfl | hc
          · simp
          · have hne : d.1 ≠ c.1 := fun h => hnd.1 (h ▸ List.mem_map_of_mem hc)
            rw [List.find?_cons_of_neg (by simpa using hne)]
            exact ih hnd.2 hc
      rw [this]; rfl
    · rw [h3 a ha]
      have : Position.lookup cs a = none := by
        unfold Position.lookup
        rw [Option.map_eq_none_iff, List.find?_eq_none]
        intro c hc
        simpa using fun h : c.1 = a => ha (h ▸ List.mem_map_of_mem hc)
      rw [this]; rfl
  generalize p.update cs = r at *
  obtain ⟨⟨ax, u, v⟩, e⟩ := r
  simp only at h4 h5 this ⊢
  rw [h4, h5, this]

/-- Updating any position, known axes or not, keeps axes and unit; coordinates outside the axes are
not touched. -/
theorem update_keeps (p : Position) (cs : List (Axis × ℚ)) :
    (p.update cs).1.axes = p.axes ∧ (p.update cs).1.unit = p.unit ∧
      ∀ a ∉ p.axes, (p.update cs).1.val a = p.val a := by
  induction cs generalizing p with
  | nil => simp [Position.update]
  | cons c cs ih =>
    unfold Position.update Position.set
    by_cases hc : c.1 ∈ p.axes
    · simp only [hc, if_true]
      obtain ⟨h1, h2, h3⟩ := ih { p with val := Function.update p.val c.1 c.2 }
      refine ⟨h1, h2, fun a ha => ?_⟩
      rw [h3 a ha]
      exact Function.update_of_ne (fun h : a = c.1 => ha (h ▸ hc)) _ _
    · simp only [hc, if_false]
      exact ⟨trivial, trivial, fun _ _ => trivial⟩

/-- Whatever the coordinates, a move either goes somewhere (inside the machine's axes) or raises and
leaves the machine as it was. -/
theorem move_cases (m : Machine) (hm : m.WF) (cs : Coords) :
    (∃ v : Axis → ℚ, (∀ a ∉ m.axes, v a = 0) ∧ ¬ m.BadSys ∧ m.move cs = (m.goto v, none)) ∨
    (∃ e, m.move cs = (m, some e)) := by
  by_cases hb : m.BadSys
  · right
    unfold move
    rw [pos_bad m hb]
    by_cases hi : m.incremental = true
    · exact ⟨.index, by simp [hi]⟩
    · exact ⟨.index, by simp [hi]⟩
  · unfold move
    rw [pos_ok m hm hb]
    by_cases hi : m.incremental = true
    · simp only [hi, if_true]
      split_ifs with h1
      · right; exact ⟨_, rfl⟩
      · left
        simp only [Position.add, Position.make, if_true]
        rw [setPos_mk m hm hb]
        refine ⟨_, ?_, hb, rfl⟩
        intro a ha
        simp only [ha, if_false, abs_outside m hm a ha, off_outside m hm a ha, sysOff_outside m hm a ha]
        simp
    · simp only [hi, Bool.false_eq_true, if_false]
      split_ifs with h1 h2
      · right; exact ⟨_, rfl⟩
      · right; exact ⟨_, rfl⟩
      · set p : Position := ⟨m.axes, m.absPos.unit, fun a => m.absPos.val a - m.sysOff a - m.state.offset.val a⟩ with hp
        obtain ⟨k1, k2, k3⟩ := update_keeps p (cs.filterMap (fun c => c.2.map (fun v => (c.1, v))))
        generalize p.update (cs.filterMap (fun c => c.2.map (fun v => (c.1, v)))) = r at *
        obtain ⟨q, e⟩ := r
        cases e with
        | some e => right; exact ⟨e, rfl⟩
        | none =>
          left
          simp only at k1 k2 k3 ⊢
          rw [setPos_ok m hm hb q k1 k2]
          refine ⟨_, ?_, hb, rfl⟩
          intro a ha
          rw [k3 a ha]
          simp [hp, abs_outside m hm a ha, off_outside m hm a ha, sysOff_outside m hm a ha]

/-- Where a move with the given coordinates leads, in absolute coordinates. -/
def target (m : Machine) (cs : List (Axis × ℚ)) (a : Axis) : ℚ :=
  match Position.lookup cs a with
  | none => m.absPos.val a
  | some v => if m.incremental then m.absPos.val a + v else v + m.state.offset.val a + m.sysOff a

/-- A move along the machine's own axes reaches its target. -/
theorem move_ok (m : Machine) (hm : m.WF) (hb : ¬ m.BadSys) (cs : List (Axis × ℚ))
    (hnd : (cs.map Prod.fst).Nodup) (hax : ∀ c ∈ cs, c.1 ∈ m.axes) :
    m.move (cs.map (fun c => (c.1, some c.2))) = (m.goto (m.target cs), none) := by
  have hfm : (cs.map (fun c => (c.1, some c.2))).filterMap (fun c => c.2.map (fun v => (c.1, v))) = cs := by
    rw [List.filterMap_map]
    conv_rhs => rw [← List.filterMap_some (l := cs)]
    rfl
  have hany : (cs.map (fun c => (c.1, some c.2))).any (fun c => c.2.isNone) = false := by
    simp
  have hlook : ∀ a ∉ m.axes, Position.lookup cs a = none := by
    intro a ha
    unfold Position.lookup
    rw [Option.map_eq_none_iff, List.find?_eq_none]
    intro c hc
    simpa using fun h : c.1 = a => ha (h ▸ hax c hc)
  unfold move
  rw [pos_ok m hm hb]
  by_cases hi : m.incremental = true
  · have hfl : (cs.map (fun c => (c.1, some c.2))).filter (fun c => decide (c.1 ∈ m.axes)) =
        cs.map (fun c => (c.1, some c.2)) := by
      rw [List.filter_eq_self]
      intro c hc
      obtain ⟨d, hd, rfl⟩ := List.mem_map.1 hc
      simpa using hax d hd
    simp only [hi, if_true, hfl, hany, Bool.false_eq_true, if_false, hfm, Position.add, Position.make]
    rw [setPos_mk m hm hb]
    congr 2
    funext a
    unfold target
    by_cases ha : a ∈ m.axes
    · simp only [ha, if_true, hi]
      cases Position.lookup cs a with
      | none => simp
      | some v => simp only [Option.getD_some]; ring
    · simp only [ha, if_false, hlook a ha]
      ring
  · have h1 : (cs.map (fun c => (c.1, some c.2))).any (fun c => decide (c.1 ∉ m.axes)) = false := by
      rw [List.any_eq_false]
      intro c hc
      obtain ⟨d, hd, rfl⟩ := List.mem_map.1 hc
      simpa using hax d hd
    simp only [hi, Bool.false_eq_true, if_false, h1, hany, hfm]
    rw [update_eq _ cs hnd hax]
    simp only
    rw [setPos_mk m hm hb]
    congr 2
    funext a
    unfold target
    simp only [hi, Bool.false_eq_true, if_false]
    cases Position.lookup cs a with
    | none => simp
    | some v => simp

end Machine

end Pygcode
