import Verif.Model.Machine
import Mathlib.Tactic.Ring
import Mathlib.Tactic.FieldSimp
import Mathlib.Tactic.NormNum
import Mathlib.Tactic.Linarith

/-!
# Positions (C26 – C29)
-/

namespace Pygcode

open Position

/-! ## C26: arithmetic -/

/-- (a + b) - b == a. -/
theorem C26_add_sub (a b : Position) (h : a.axes = b.axes) :
    ∃ c : Position, a.add b = .ok c ∧ c.sub b = .ok a := by
  refine ⟨{ a with val := fun x => a.val x + b.val x }, by simp [add, h], ?_⟩
  simp [sub, ← h]

/-- (a - b) + b == a. -/
theorem C26_sub_add (a b : Position) (h : a.axes = b.axes) :
    ∃ c : Position, a.sub b = .ok c ∧ c.add b = .ok a := by
  refine ⟨{ a with val := fun x => a.val x - b.val x }, by simp [sub, h], ?_⟩
  simp [add, ← h]

/-- a + b and b + a agree on every axis. -/
theorem C26_comm (a b c d : Position) (h : a.add b = .ok c) (h' : b.add a = .ok d) :
    c.axes = d.axes ∧ ∀ x, c.val x = d.val x := by
  unfold add at h h'
  split_ifs at h with h1
  split_ifs at h' with h2
  cases h; cases h'
  exact ⟨h1, fun x => add_comm _ _⟩

/-- (a + b) + c and a + (b + c) are the same, whichever of them exists. -/
theorem C26_assoc (a b c d e : Position) (h : a.add b = .ok d) (h' : b.add c = .ok e) :
    d.add c = a.add e := by
  unfold add at h h'
  split_ifs at h with h1
  split_ifs at h' with h2
  cases h; cases h'
  simp [add, h1, h2, add_assoc]

/-- (p * s) / s == p, and a sum scales axis by axis. -/
theorem C26_mul_div (p : Position) (s : ℚ) (hs : s ≠ 0) : (p.mul s).div s = .ok p := by
  simp [mul, div, hs]

/-- (a + b) * s == a * s + b * s. -/
theorem C26_mul_add (a b c : Position) (s : ℚ) (h : a.add b = .ok c) :
    (a.mul s).add (b.mul s) = .ok (c.mul s) := by
  unfold add at h
  split_ifs at h with h1
  cases h
  simp [add, mul, h1, add_mul]

/-- a + b raises `MachineInvalidAxis` exactly if the axes differ, a - b exactly if b has an axis
that a lacks; division raises `ZeroDivisionError` exactly for scalar 0 (and at least one axis). -/
theorem C26_errors (a b : Position) (s : ℚ) :
    (a.add b = .error .invalidAxis ↔ a.axes ≠ b.axes) ∧
    ((∃ c, a.add b = .ok c) ↔ a.axes = b.axes) ∧
    (a.sub b = .error .invalidAxis ↔ ∃ x, x ∈ b.axes ∧ x ∉ a.axes) ∧
    ((∃ c, a.sub b = .ok c) ↔ ∀ x, x ∈ b.axes → x ∈ a.axes) ∧
    (a.div s = .error .zeroDiv ↔ s = 0 ∧ a.axes.Nonempty) := by
  refine ⟨?_, ?_, ?_, ?_, ?_⟩
  · unfold add; split_ifs with h <;> simp [h]
  · unfold add; split_ifs with h <;> simp [h]
  · unfold sub
    split_ifs with h
    · simp only [reduceCtorEq, false_iff, not_exists, not_and, not_not]
      exact fun x hx => h hx
    · simp only [true_iff]
      simpa [Finset.subset_iff] using h
  · unfold sub
    split_ifs with h
    · simp only [Except.ok.injEq, exists_eq', true_iff]
      exact fun x hx => h hx
    · simp only [reduceCtorEq, exists_false, false_iff]
      exact fun h' => h (fun x hx => h' x hx)
  · unfold div
    split_ifs with h
    · simp [h.1, Finset.nonempty_iff_ne_empty, h.2]
    · simp only [reduceCtorEq, false_iff]
      rw [Finset.nonempty_iff_ne_empty]
      exact h

/-- A difference keeps the left operand's unit and axes, and its coordinates on the axes that the
right operand lacks. -/
theorem C26_sub_fewer_axes (a b c : Position) (hb : b.WF) (h : a.sub b = .ok c) :
    c.axes = a.axes ∧ c.unit = a.unit ∧ (∀ x ∈ b.axes, c.val x = a.val x - b.val x) ∧
      ∀ x ∉ b.axes, c.val x = a.val x := by
  unfold sub at h
  split_ifs at h with h1
  cases h
  refine ⟨rfl, rfl, fun _ _ => rfl, fun x hx => ?_⟩
  simp [hb x hx]

/-- Arithmetic takes no notice of units: 1 inch + 1 mm is "2 inch". -/
example : ((make {.X} .inch [(.X, 1)]).add (make {.X} .mm [(.X, 1)])).map (fun p => (p.unit, p.val .X))
    = .ok (.inch, 2) := by decide +kernel

example : ((make {.X, .Y} .mm [(.X, 1), (.Y, 2)]).add (make {.X, .Y} .mm [(.Y, 5)])).map
    (fun p => (p.val .X, p.val .Y, p.val .Z)) = .ok (1, 7, 0) := by decide +kernel

example : ((make {.X} .mm [(.X, 1)]).sub (make {.X, .Y} .mm [(.Y, 5)])).map (fun p => p.val .X)
    = .error .invalidAxis := by decide +kernel

/-! ## C27: units -/

/-- Length of a coordinate in millimetres. -/
def lengthMM (p : Position) (x : Axis) : ℚ :=
  match p.unit with
  | .inch => p.val x * (254 / 10)
  | .mm => p.val x

/-- The property setter, if it were run, would keep the lengths, be undone by setting the old unit
back, and do nothing for the same unit. -/
theorem C27_setter_partial (p : Position) (u : LUnit) :
    (p.unitSetter u).unit = u ∧ (p.unitSetter u).axes = p.axes ∧
    (∀ x, lengthMM (p.unitSetter u) x = lengthMM p x) ∧
    (p.unitSetter u).unitSetter p.unit = p ∧ p.unitSetter p.unit = p := by
  obtain ⟨ax, un, v⟩ := p
  cases un <;> cases u <;>
    simp only [unitSetter, lengthMM, LUnit.factor, if_true, reduceCtorEq, if_false, and_self,
      implies_true, true_and, Position.mk.injEq, and_true] <;>
    refine ⟨fun x => ?_, funext fun x => ?_⟩ <;> ring

/-- The expectation about `p.unit = u` fails: the statement changes neither unit nor coordinates.
`==` fails it too: 1 inch equals 1 mm, and 1 inch differs from 25.4 mm. -/
theorem C27_refuted :
    (∀ (p : Position) (u : LUnit), u ≠ p.unit → (p.assignUnit u).unit ≠ u) ∧
    (∃ a b : Position, a.eq b = true ∧ lengthMM a .X ≠ lengthMM b .X) ∧
    (∃ a b : Position, a.axes = b.axes ∧ (∀ x ∈ a.axes, lengthMM a x = lengthMM b x) ∧
      a.eq b = false) := by
  refine ⟨fun p u h => h.symm, ⟨make {.X} .inch [(.X, 1)], make {.X} .mm [(.X, 1)], ?_, ?_⟩,
    ⟨make {.X} .inch [(.X, 1)], make {.X} .mm [(.X, 254 / 10)], ?_, ?_, ?_⟩⟩ <;> decide +kernel

/-- What `==` does: it compares axes and numbers, whatever the units. -/
theorem C27_eq_iff (a b : Position) :
    a.eq b = true ↔ a.axes = b.axes ∧ ∀ x ∈ a.axes, a.val x = b.val x := by
  unfold eq assignUnit
  by_cases h : a.axes = b.axes <;> simp [h]

/-- The part of the expectation that holds: positions in the same unit are compared by length; `==`
is reflexive, symmetric and transitive. -/
theorem C27_equality_partial (a b c : Position) :
    (a.unit = b.unit → (a.eq b = true ↔ a.axes = b.axes ∧ ∀ x ∈ a.axes, lengthMM a x = lengthMM b x)) ∧
    a.eq a = true ∧ (a.eq b = true → b.eq a = true) ∧
    (a.eq b = true → b.eq c = true → a.eq c = true) := by
  refine ⟨fun h => ?_, ?_, ?_, ?_⟩
  · rw [C27_eq_iff]
    refine and_congr_right (fun _ => forall₂_congr (fun x _ => ?_))
    unfold lengthMM
    rw [← h]
    cases a.unit
    · exact ⟨fun h => by simp only [h], fun h => by
        have : (254 / 10 : ℚ) ≠ 0 := by norm_num
        exact mul_right_cancel₀ this h⟩
    · exact Iff.rfl
  · rw [C27_eq_iff]; exact ⟨rfl, fun _ _ => rfl⟩
  · rw [C27_eq_iff, C27_eq_iff]
    rintro ⟨h1, h2⟩
    exact ⟨h1.symm, fun x hx => (h2 x (h1 ▸ hx)).symm⟩
  · rw [C27_eq_iff, C27_eq_iff, C27_eq_iff]
    rintro ⟨h1, h2⟩ ⟨h3, h4⟩
    exact ⟨h1.trans h3, fun x hx => (h2 x hx).trans (h4 x (h1 ▸ hx))⟩

example : ((make {.X} .inch [(.X, 2)]).unitSetter .mm).val .X = 50.8 := by decide +kernel

/-! ## C28: unknown axes -/

/-- Assigning an axis the position lacks raises `MachineInvalidAxis`; assigning one it has changes
exactly that coordinate. -/
theorem C28_set (p : Position) (a : Axis) (v : ℚ) :
    (a ∉ p.axes → p.set a v = .error .invalidAxis ∧ p.get a = .error .attribute) ∧
    (a ∈ p.axes → ∃ q, p.set a v = .ok q ∧ q.get a = .ok v ∧ q.axes = p.axes ∧ q.unit = p.unit ∧
      ∀ b, b ≠ a → q.get b = p.get b) := by
  constructor
  · intro h; simp [Position.set, Position.get, h]
  · intro h
    refine ⟨{ p with val := Function.update p.val a v }, by simp [Position.set, h], by simp [Position.get, h], rfl, rfl,
      fun b hb => by simp [Position.get, Function.update_of_ne hb]⟩

/-- `update`: if all axes are known, each given coordinate is set (once given) and all others stay;
otherwise it raises `MachineInvalidAxis`. -/
theorem C28_update (p : Position) (cs : List (Axis × ℚ)) (hnd : (cs.map Prod.fst).Nodup) :
    ((∀ c ∈ cs, c.1 ∈ p.axes) →
      (p.update cs).2 = none ∧ (∀ c ∈ cs, (p.update cs).1.val c.1 = c.2) ∧
      (∀ a, a ∉ cs.map Prod.fst → (p.update cs).1.val a = p.val a) ∧
      (p.update cs).1.axes = p.axes ∧ (p.update cs).1.unit = p.unit) ∧
    ((∃ c ∈ cs, c.1 ∉ p.axes) → (p.update cs).2 = some .invalidAxis) := by
  induction cs generalizing p with
  | nil => simp [update]
  | cons c cs ih =>
    simp only [List.map_cons, List.nodup_cons] at hnd
    by_cases hc : c.1 ∈ p.axes
    · have hu : p.update (c :: cs) =
          ({ p with val := Function.update p.val c.1 c.2 } : Position).update cs := by
        simp [update, Position.set, hc]
      rw [hu]
      have ih := ih { p with val := Function.update p.val c.1 c.2 } hnd.2
      constructor
      · intro hall
        obtain ⟨h1, h2, h3, h4, h5⟩ := ih.1 (fun d hd => hall d (List.mem_cons_of_mem _ hd))
        refine ⟨h1, ?_, ?_, h4, h5⟩
        · intro d hd
          rcases List.mem_cons.1 hd with rfl | hd
          · rw [h3 _ hnd.1]; simp
          · exact h2 d hd
        · intro a ha
          simp only [List.map_cons, List.mem_cons, not_or] at ha
          rw [h3 a ha.2]
          simp [Function.update_of_ne ha.1]
      · rintro ⟨d, hd, hda⟩
        rcases List.mem_cons.1 hd with rfl | hd
        · exact absurd hc hda
        · exact ih.2 ⟨d, hd, hda⟩
    · constructor
      · intro hall; exact absurd (hall c List.mem_cons_self) hc
      · intro _; simp [update, Position.set, hc]

/-- A new position has the given coordinates on its axes and zero elsewhere. -/
theorem C28_make (ax : Finset Axis) (u : LUnit) (cs : List (Axis × ℚ)) (hnd : (cs.map Prod.fst).Nodup) :
    (make ax u cs).WF ∧ (∀ c ∈ cs, c.1 ∈ ax → (make ax u cs).val c.1 = c.2) ∧
    ∀ a, a ∉ cs.map Prod.fst → (make ax u cs).val a = 0 := by
  refine ⟨fun a ha => if_neg ha, ?_, ?_⟩
  · intro c hc hax
    have : Position.lookup cs c.1 = some c.2 := by
      unfold Position.lookup
      induction cs with
      | nil => simp at hc
      | cons d ds ih =>
        simp only [List.map_cons, List.nodup_cons] at hnd
        rcases List.mem_cons.1 hc with rfl | hc
        · simp
        · have hne : d.1 ≠ c.1 := fun h => hnd.1 (h ▸ List.mem_map_of_mem hc)
          rw [List.find?_cons_of_neg (by simpa using hne)]
          exact ih hnd.2 hc
    unfold make
    simp only [hax, if_true, this, Option.getD_some]
  · intro a ha
    have : Position.lookup cs a = none := by
      unfold Position.lookup
      rw [Option.map_eq_none_iff, List.find?_eq_none]
      intro c hc
      simpa using fun h : c.1 = a => ha (h ▸ List.mem_map_of_mem hc)
    unfold make
    simp only [this, Option.getD_none, ite_self]

example : ((zero Machine.xyz).update [(.X, 3), (.Z, 4)]).1.val .Z = 4 := by decide +kernel
/-- `update` that fails half-way keeps the coordinates set before. -/
example : let r := (zero Machine.xyz).update [(.X, 3), (.A, 4)]
    r.2 = some .invalidAxis ∧ r.1.val .X = 3 := by decide +kernel

/-! ## C29: extremes -/

/-- `Position.min(a, b)` and `Position.max(a, b)`, for positions in the same unit, have on each axis
of `a` the smaller / larger of the two lengths; `AttributeError` exactly if `b` lacks an axis of
`a`. -/
theorem C29_extremes_partial (a b : Position) :
    ((¬ a.axes ⊆ b.axes) → Position.min a b = .error .attribute ∧ Position.max a b = .error .attribute) ∧
    (a.axes ⊆ b.axes → ∃ lo hi, Position.min a b = .ok lo ∧ Position.max a b = .ok hi ∧
      lo.unit = a.unit ∧ hi.unit = a.unit ∧ lo.axes = Finset.univ ∧ hi.axes = Finset.univ ∧
      ∀ x ∈ a.axes,
        (lo.val x ≤ a.val x ∧ lo.val x ≤ b.val x ∧ (lo.val x = a.val x ∨ lo.val x = b.val x)) ∧
        (a.val x ≤ hi.val x ∧ b.val x ≤ hi.val x ∧ (hi.val x = a.val x ∨ hi.val x = b.val x)) ∧
        (a.unit = b.unit →
          lengthMM lo x = Min.min (lengthMM a x) (lengthMM b x) ∧
          lengthMM hi x = Max.max (lengthMM a x) (lengthMM b x))) := by
  have hcmp : ∀ key, Position.cmp key a b = if a.axes ⊆ b.axes then
      .ok ⟨Axis.all, a.unit, fun x => if x ∈ a.axes then key (a.val x) (b.val x) else 0⟩
      else .error .attribute := by
    intro key
    unfold Position.cmp assignUnit
    simp
  constructor
  · intro h; simp [Position.min, Position.max, hcmp, h]
  · intro h
    refine ⟨⟨Axis.all, a.unit, fun x => if x ∈ a.axes then Min.min (a.val x) (b.val x) else 0⟩,
      ⟨Axis.all, a.unit, fun x => if x ∈ a.axes then Max.max (a.val x) (b.val x) else 0⟩,
      by simp [Position.min, hcmp, h], by simp [Position.max, hcmp, h], rfl, rfl, rfl, rfl, ?_⟩
    intro x hx
    simp only [hx, if_true]
    refine ⟨⟨min_le_left _ _, min_le_right _ _, min_choice _ _⟩,
      ⟨le_max_left _ _, le_max_right _ _, max_choice _ _⟩, fun hu => ?_⟩
    unfold lengthMM
    rw [← hu]
    cases a.unit
    · simp only [hx, if_true]
      have : (0 : ℚ) ≤ 254 / 10 := by norm_num
      exact ⟨min_mul_of_nonneg _ _ this, max_mul_of_nonneg _ _ this⟩
    · simp [hx]

/-- With different units the raw numbers are compared: the "minimum" of 2 mm and 1 inch is
1 mm. -/
theorem C29_units_refuted : ∃ a b lo : Position, Position.min a b = .ok lo ∧ Axis.X ∈ a.axes ∧
    lengthMM lo .X ≠ Min.min (lengthMM a .X) (lengthMM b .X) :=
  ⟨make {.X} .mm [(.X, 2)], make {.X} .inch [(.X, 1)], ⟨Axis.all, .mm, fun x =>
    if x ∈ ({.X} : Finset Axis) then Min.min ((make {.X} .mm [(.X, 2)]).val x)
      ((make {.X} .inch [(.X, 1)]).val x) else 0⟩, rfl, by decide +kernel, by decide +kernel⟩

example : (Position.min (make {.X, .Y} .mm [(.X, 2), (.Y, -1)]) (make {.X, .Y} .mm [(.X, 1)])).map
    (fun p => (p.val .X, p.val .Y)) = .ok (1, -1) := by decide +kernel

end Pygcode
