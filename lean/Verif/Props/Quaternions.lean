import Verif.Model.Quat
import Verif.Props.Arc

/-!
# Geometric utilities (C106)

What the comments in utils.py and gcodes.py say of `quat2align`, `quat2coord_system`, the planes' quaternions and
`plane_projection`.
-/

namespace Pygcode
open Pl

/-- Squared length. -/
def V3.sq (v : V3) : ℝ := v.x ^ 2 + v.y ^ 2 + v.z ^ 2

section
variable (a b c v : V3)

theorem comp_add : (a + b).x = a.x + b.x ∧ (a + b).y = a.y + b.y ∧ (a + b).z = a.z + b.z := ⟨rfl, rfl, rfl⟩
theorem comp_sub : (a - b).x = a.x - b.x ∧ (a - b).y = a.y - b.y ∧ (a - b).z = a.z - b.z := ⟨rfl, rfl, rfl⟩
theorem comp_neg : (-a).x = -a.x ∧ (-a).y = -a.y ∧ (-a).z = -a.z := ⟨rfl, rfl, rfl⟩

theorem abs_sq : a.abs ^ 2 = a.sq := Real.sq_sqrt (by positivity)

theorem abs_pos_of (h : a ≠ ⟨0, 0, 0⟩) : 0 < a.abs := by
  refine lt_of_le_of_ne (Real.sqrt_nonneg _) (fun h0 => h ?_)
  have h1 := (Real.sqrt_eq_zero (by positivity)).1 h0.symm
  have hx : a.x = 0 := by nlinarith [sq_nonneg a.x, sq_nonneg a.y, sq_nonneg a.z]
  have hy : a.y = 0 := by nlinarith [sq_nonneg a.x, sq_nonneg a.y, sq_nonneg a.z]
  have hz : a.z = 0 := by nlinarith [sq_nonneg a.x, sq_nonneg a.y, sq_nonneg a.z]
  exact V3.ext hx hy hz

theorem normalized_sq (h : a ≠ ⟨0, 0, 0⟩) : a.normalized.sq = 1 := by
  have hp := abs_pos_of a h
  have h2 := abs_sq a
  unfold V3.normalized
  rw [if_neg hp.ne']
  simp only [V3.sq] at h2 ⊢
  field_simp
  linarith

theorem normalized_of_sq (h : a.sq = 1) : a.normalized = a := normalized_unit a h

theorem sq_of_zero (h : a.sq = 0) : a = ⟨0, 0, 0⟩ := by
  unfold V3.sq at h
  have hx : a.x = 0 := by nlinarith [sq_nonneg a.x, sq_nonneg a.y, sq_nonneg a.z]
  have hy : a.y = 0 := by nlinarith [sq_nonneg a.x, sq_nonneg a.y, sq_nonneg a.z]
  have hz : a.z = 0 := by nlinarith [sq_nonneg a.x, sq_nonneg a.y, sq_nonneg a.z]
  exact V3.ext hx hy hz

theorem cross_sq : (a.cross b).sq = a.sq * b.sq - a.dot b ^ 2 := by
  simp only [V3.cross, V3.sq, V3.dot]; ring

/-- The rotation by `θ` about the unit vector `n`. -/
theorem rotate_apply (θ : ℝ) (n : V3) (hn : n.sq = 1) :
    (Quat.rotateAxis θ n).apply v =
      v.mul (Real.cos θ) + (n.cross v).mul (Real.sin θ) + n.mul (n.dot v * (1 - Real.cos θ)) := by
  unfold Quat.rotateAxis
  simp only [normalized_of_sq n hn]
  have h1 : Real.cos θ = 1 - 2 * Real.sin (θ / 2) ^ 2 := by
    have := Real.cos_two_mul (θ / 2)
    rw [show 2 * (θ / 2) = θ by ring] at this
    have := Real.sin_sq_add_cos_sq (θ / 2)
    linarith
  have h2 : Real.sin θ = 2 * Real.sin (θ / 2) * Real.cos (θ / 2) := by
    have := Real.sin_two_mul (θ / 2)
    rwa [show 2 * (θ / 2) = θ by ring] at this
  have h3 := Real.sin_sq_add_cos_sq (θ / 2)
  rw [h1, h2]
  set s := Real.sin (θ / 2)
  set k := Real.cos (θ / 2)
  have hk : k ^ 2 = 1 - s ^ 2 := by linarith
  unfold V3.sq at hn
  have hx : n.x ^ 2 = 1 - n.y ^ 2 - n.z ^ 2 := by linarith
  ext
  · simp only [Quat.apply, comp_add, V3.mul, V3.cross, V3.dot]
    linear_combination v.x * h3 - s ^ 2 * v.x * hn
  · simp only [Quat.apply, comp_add, V3.mul, V3.cross, V3.dot]
    linear_combination v.y * h3 - s ^ 2 * v.y * hn
  · simp only [Quat.apply, comp_add, V3.mul, V3.cross, V3.dot]
    linear_combination v.z * h3 - s ^ 2 * v.z * hn

end

/-- **C106** (product): the product of two quaternions applies one after the other. -/
theorem C106_product (p q : Quat) (v : V3) : (p.mul q).apply v = p.apply (q.apply v) := by
  ext <;> simp only [Quat.mul, Quat.apply] <;> ring

/-- Squared length of a quaternion. -/
def Quat.sq (q : Quat) : ℝ := q.w ^ 2 + q.x ^ 2 + q.y ^ 2 + q.z ^ 2

theorem rotate_sq (θ : ℝ) (n : V3) (hn : n.sq = 1) : (Quat.rotateAxis θ n).sq = 1 := by
  unfold Quat.rotateAxis
  simp only [normalized_of_sq n hn, Quat.sq]
  have h3 := Real.sin_sq_add_cos_sq (θ / 2)
  unfold V3.sq at hn
  linear_combination h3 + Real.sin (θ / 2) ^ 2 * hn

theorem normalized_twice (a : V3) : a.normalized.normalized = a.normalized := by
  by_cases h : a = ⟨0, 0, 0⟩
  · have h0 : a.normalized = a := by
      unfold V3.normalized
      rw [if_pos]
      subst h
      simp [V3.abs]
    rw [h0, h0]
  · exact normalized_of_sq _ (normalized_sq a h)

theorem rotate_normalized (θ : ℝ) (a : V3) : Quat.rotateAxis θ a = Quat.rotateAxis θ a.normalized := by
  unfold Quat.rotateAxis
  rw [normalized_twice]

/-- How `quat2align` turns one unit vector to another. -/
theorem align_core (a b : V3) (ha : a.sq = 1) (hb : b.sq = 1) (hne : a ≠ -b) :
    (quat2align a b).sq = 1 ∧ (quat2align a b).apply a = b ∧
      ∀ v : V3, v.dot a = 0 → v.dot b = 0 → (quat2align a b).apply v = v := by
  have hA : a.abs = 1 := abs_unit a ha
  have hB : b.abs = 1 := abs_unit b hb
  have hang : a.angle b = Real.arccos (a.dot b) := by unfold V3.angle; rw [hA, hB]; simp
  have hcs := cross_sq a b
  rw [ha, hb, one_mul] at hcs
  have hd : a.dot b ^ 2 ≤ 1 := by
    have : 0 ≤ (a.cross b).sq := by unfold V3.sq; positivity
    linarith
  have hd1 : -1 ≤ a.dot b := by nlinarith
  have hd2 : a.dot b ≤ 1 := by nlinarith
  unfold quat2align
  rw [hang]
  by_cases h0 : a.cross b = ⟨0, 0, 0⟩
  · rw [h0] at hcs ⊢
    have h1 : a.dot b ^ 2 = 1 := by simp [V3.sq] at hcs; linarith
    have hdot : a.dot b = 1 := by
      have hf : (a.dot b - 1) * (a.dot b + 1) = 0 := by linear_combination h1
      rcases mul_eq_zero.1 hf with h | h
      · linarith
      · exfalso
        apply hne
        have : (a + b).sq = 0 := by
          have : (a + b).sq = a.sq + b.sq + 2 * a.dot b := by
            simp only [V3.sq, V3.dot, comp_add]; ring
          rw [this, ha, hb]; linarith
        have := sq_of_zero _ this
        ext
        · have := congrArg V3.x this; simp only [comp_add] at this; simp only [comp_neg]; linarith
        · have := congrArg V3.y this; simp only [comp_add] at this; simp only [comp_neg]; linarith
        · have := congrArg V3.z this; simp only [comp_add] at this; simp only [comp_neg]; linarith
    have hab : a = b := by
      have : (a - b).sq = 0 := by
        have : (a - b).sq = a.sq + b.sq - 2 * a.dot b := by
          simp only [V3.sq, V3.dot, comp_sub]; ring
        rw [this, ha, hb, hdot]; norm_num
      have := sq_of_zero _ this
      ext
      · have := congrArg V3.x this; simp only [comp_sub] at this; linarith
      · have := congrArg V3.y this; simp only [comp_sub] at this; linarith
      · have := congrArg V3.z this; simp only [comp_sub] at this; linarith
    have hq : Quat.rotateAxis (Real.arccos (a.dot b)) ⟨0, 0, 0⟩ = Quat.one := by
      unfold Quat.rotateAxis Quat.one V3.normalized
      rw [hdot, Real.arccos_one]
      simp [V3.abs]
    rw [hq]
    refine ⟨by norm_num [Quat.sq, Quat.one], ?_, fun v _ _ => ?_⟩
    · rw [hab]; ext <;> simp [Quat.apply, Quat.one]
    · ext <;> simp [Quat.apply, Quat.one]
  · have hpos := abs_pos_of _ h0
    set n := (a.cross b).normalized with hn
    have hn1 : n.sq = 1 := normalized_sq _ h0
    set L := (a.cross b).abs with hL
    have hnL : n.mul L = a.cross b := by
      rw [hn]
      unfold V3.normalized
      rw [if_neg hpos.ne']
      ext <;> simp only [V3.mul] <;> rw [div_mul_cancel₀ _ hpos.ne']
    have hL2 : L ^ 2 = 1 - a.dot b ^ 2 := by rw [hL, abs_sq]; exact hcs
    have hsin : Real.sin (Real.arccos (a.dot b)) = L := by
      rw [Real.sin_arccos, ← hL2, Real.sqrt_sq hpos.le]
    have hcos : Real.cos (Real.arccos (a.dot b)) = a.dot b := Real.cos_arccos hd1 hd2
    rw [rotate_normalized, ← hn]
    refine ⟨rotate_sq _ _ hn1, ?_, fun v hva hvb => ?_⟩
    · rw [rotate_apply _ _ _ hn1, hcos, hsin]
      have hna : n.dot a = 0 := by
        have h1 : (n.mul L).dot a = n.dot a * L := by simp only [V3.dot, V3.mul]; ring
        have h2 : (n.mul L).dot a = 0 := by rw [hnL]; simp only [V3.dot, V3.cross]; ring
        rw [h1] at h2
        exact (mul_eq_zero.1 h2).resolve_right hpos.ne'
      have hcr : (n.cross a).mul L = (n.mul L).cross a := by
        ext <;> simp only [V3.cross, V3.mul] <;> ring
      rw [hna, hcr, hnL]
      simp only [V3.sq] at ha
      ext
      · simp only [comp_add, V3.mul, V3.cross, V3.dot]; linear_combination b.x * ha
      · simp only [comp_add, V3.mul, V3.cross, V3.dot]; linear_combination b.y * ha
      · simp only [comp_add, V3.mul, V3.cross, V3.dot]; linear_combination b.z * ha
    · rw [rotate_apply _ _ _ hn1, hcos, hsin]
      have hz : (n.mul L).cross v = ⟨0, 0, 0⟩ := by
        rw [hnL]
        have e1 : v.x * a.x + v.y * a.y + v.z * a.z = 0 := hva
        have e2 : v.x * b.x + v.y * b.y + v.z * b.z = 0 := hvb
        ext
        · simp only [V3.cross]; linear_combination b.x * e1 - a.x * e2
        · simp only [V3.cross]; linear_combination b.y * e1 - a.y * e2
        · simp only [V3.cross]; linear_combination b.z * e1 - a.z * e2
      have hcr : (n.cross v).mul L = ⟨0, 0, 0⟩ := by
        rw [← hz]; ext <;> simp only [V3.cross, V3.mul] <;> ring
      have hnv : n.cross v = ⟨0, 0, 0⟩ := by
        ext
        · exact (mul_eq_zero.1 (congrArg V3.x hcr)).resolve_right hpos.ne'
        · exact (mul_eq_zero.1 (congrArg V3.y hcr)).resolve_right hpos.ne'
        · exact (mul_eq_zero.1 (congrArg V3.z hcr)).resolve_right hpos.ne'
      have f1 := congrArg V3.x hnv
      have f2 := congrArg V3.y hnv
      have f3 := congrArg V3.z hnv
      simp only [V3.cross] at f1 f2 f3
      rw [hcr]
      simp only [V3.sq] at hn1
      have key : n.mul (n.dot v) = v := by
        ext
        · simp only [V3.mul, V3.dot]; linear_combination v.x * hn1 + n.y * f3 - n.z * f2
        · simp only [V3.mul, V3.dot]; linear_combination v.y * hn1 + n.z * f1 - n.x * f3
        · simp only [V3.mul, V3.dot]; linear_combination v.z * hn1 + n.x * f2 - n.y * f1
      have k1 := congrArg V3.x key
      have k2 := congrArg V3.y key
      have k3 := congrArg V3.z key
      simp only [V3.mul] at k1 k2 k3
      ext
      · simp only [comp_add, V3.mul]; linear_combination (1 - a.dot b) * k1
      · simp only [comp_add, V3.mul]; linear_combination (1 - a.dot b) * k2
      · simp only [comp_add, V3.mul]; linear_combination (1 - a.dot b) * k3

/-- **C106** (turn): a quaternion of length one keeps lengths, angles and handedness, and its conjugate undoes it. -/
theorem C106_turn (q : Quat) (h : q.sq = 1) (u v : V3) :
    (q.apply u).dot (q.apply v) = u.dot v ∧ (q.apply u).cross (q.apply v) = q.apply (u.cross v) ∧
      q.conj.apply (q.apply v) = v ∧ q.apply (q.conj.apply v) = v := by
  unfold Quat.sq at h
  have h2 : (q.w ^ 2 + q.x ^ 2 + q.y ^ 2 + q.z ^ 2) ^ 2 = 1 := by rw [h]; norm_num
  refine ⟨?_, ?_, ?_, ?_⟩
  · simp only [V3.dot, Quat.apply]
    linear_combination (u.x * v.x + u.y * v.y + u.z * v.z) * h2
  · have e : ∀ k : V3 → ℝ, (k = V3.x ∨ k = V3.y ∨ k = V3.z) → k ((q.apply u).cross (q.apply v)) =
        (q.w ^ 2 + q.x ^ 2 + q.y ^ 2 + q.z ^ 2) * k (q.apply (u.cross v)) := by
      rintro k (rfl | rfl | rfl) <;> simp only [V3.cross, Quat.apply] <;> ring
    rw [h] at e
    exact V3.ext ((e _ (.inl rfl)).trans (one_mul _)) ((e _ (.inr (.inl rfl))).trans (one_mul _))
      ((e _ (.inr (.inr rfl))).trans (one_mul _))
  · ext
    · simp only [Quat.conj, Quat.apply]; linear_combination v.x * h2
    · simp only [Quat.conj, Quat.apply]; linear_combination v.y * h2
    · simp only [Quat.conj, Quat.apply]; linear_combination v.z * h2
  · ext
    · simp only [Quat.conj, Quat.apply]; linear_combination v.x * h2
    · simp only [Quat.conj, Quat.apply]; linear_combination v.y * h2
    · simp only [Quat.conj, Quat.apply]; linear_combination v.z * h2

theorem mul_sq (p q : Quat) : (p.mul q).sq = p.sq * q.sq := by
  simp only [Quat.mul, Quat.sq]; ring

/-- **C106** (align): `quat2align(a, b)` is a rotation that turns the direction of `a` to that of `b`, and turns nothing else: what
is perpendicular to both stays.  Unless the directions are opposite. -/
theorem C106_align (a b : V3) (ha : a ≠ ⟨0, 0, 0⟩) (hb : b ≠ ⟨0, 0, 0⟩) (hne : a.normalized ≠ -b.normalized) :
    (quat2alignUnit a b).sq = 1 ∧ (quat2alignUnit a b).apply a.normalized = b.normalized ∧
      ∀ v : V3, v.dot a = 0 → v.dot b = 0 → (quat2alignUnit a b).apply v = v := by
  obtain ⟨h1, h2, h3⟩ := align_core _ _ (normalized_sq a ha) (normalized_sq b hb) hne
  refine ⟨h1, h2, fun v hva hvb => h3 v ?_ ?_⟩
  · have hp := abs_pos_of a ha
    unfold V3.normalized
    rw [if_neg hp.ne']
    simp only [V3.dot] at hva ⊢
    field_simp
    linarith
  · have hp := abs_pos_of b hb
    unfold V3.normalized
    rw [if_neg hp.ne']
    simp only [V3.dot] at hvb ⊢
    field_simp
    linarith

/-- **C106** (opposite): for opposite directions the result is no rotation but zero, and takes every vector to zero. -/
theorem C106_opposite (a b : V3) (ha : a ≠ ⟨0, 0, 0⟩) (hop : b.normalized = -a.normalized) (v : V3) :
    (quat2alignUnit a b).apply v = ⟨0, 0, 0⟩ := by
  have h1 := normalized_sq a ha
  unfold quat2alignUnit
  rw [hop]
  set n := a.normalized
  have h2 : (-n).sq = 1 := by rw [← h1]; simp only [V3.sq, comp_neg]; ring
  have hd : n.dot (-n) = -1 := by
    have : n.dot (-n) = -n.sq := by simp only [V3.sq, V3.dot, comp_neg]; ring
    rw [this, h1]
  have hc : n.cross (-n) = ⟨0, 0, 0⟩ := by ext <;> simp only [V3.cross, comp_neg] <;> ring
  unfold quat2align V3.angle
  rw [abs_unit n h1, abs_unit (-n) h2, hd, hc]
  unfold Quat.rotateAxis V3.normalized
  ext <;> simp [Quat.apply, V3.abs, Real.arccos_neg_one]

/-- **C106** (system): `quat2coord_system(o1, o2, a1, a2)`, for two pairs of perpendicular vectors, is a rotation that turns the
directions of `o1` and `o2` to those of `a1` and `a2`.  Unless `o1` and `a1` are opposite, or `o2`, after the first turn, and `a2`
are. -/
theorem C106_system (o1 o2 a1 a2 : V3) (h1 : o1 ≠ ⟨0, 0, 0⟩) (h2 : o2 ≠ ⟨0, 0, 0⟩) (h3 : a1 ≠ ⟨0, 0, 0⟩) (h4 : a2 ≠ ⟨0, 0, 0⟩)
    (ho : o1.dot o2 = 0) (ha : a1.dot a2 = 0) (hne : o1.normalized ≠ -a1.normalized)
    (hne2 : (quat2alignUnit o1 a1).apply o2.normalized ≠ -a2.normalized) :
    (quat2coordSystem o1 o2 a1 a2).sq = 1 ∧
      (quat2coordSystem o1 o2 a1 a2).apply o1.normalized = a1.normalized ∧
      (quat2coordSystem o1 o2 a1 a2).apply o2.normalized = a2.normalized := by
  have hperp : ∀ u v : V3, u ≠ ⟨0, 0, 0⟩ → v ≠ ⟨0, 0, 0⟩ → u.dot v = 0 → u.normalized.dot v.normalized = 0 := by
    intro u v hu hv h
    have p1 := abs_pos_of u hu
    have p2 := abs_pos_of v hv
    unfold V3.normalized
    rw [if_neg p1.ne', if_neg p2.ne']
    simp only [V3.dot] at h ⊢
    field_simp
    linarith
  have ho' := hperp _ _ h1 h2 ho
  have ha' := hperp _ _ h3 h4 ha
  have s1 := normalized_sq o1 h1
  have s2 := normalized_sq o2 h2
  have s3 := normalized_sq a1 h3
  have s4 := normalized_sq a2 h4
  unfold quat2alignUnit at hne2
  unfold quat2coordSystem
  simp only
  set p1 := o1.normalized
  set p2 := o2.normalized
  set b1 := a1.normalized
  set b2 := a2.normalized
  obtain ⟨q1, t1, -⟩ := align_core p1 b1 s1 s3 hne
  set Q := quat2align p1 b1
  have hsq : (Q.apply p2).sq = 1 := by
    have h := (C106_turn Q q1 p2 p2).1
    have e : ∀ u : V3, u.dot u = u.sq := fun u => by simp only [V3.dot, V3.sq]; ring
    rw [e, e, s2] at h
    exact h
  obtain ⟨q2, t2, f2⟩ := align_core (Q.apply p2) b2 hsq s4 hne2
  refine ⟨by rw [mul_sq, q1, q2, one_mul], ?_, ?_⟩
  · rw [C106_product, t1]
    refine f2 b1 ?_ ha'
    rw [← t1, (C106_turn Q q1 p1 p2).1, ho']
  · rw [C106_product, t2]

theorem normalized_self (v : V3) (h : v.sq = 1) : v.normalized = v := normalized_of_sq v h

/-- **C106** (planes): the quaternions of the planes turn the XY plane to theirs as the comment in gcodes.py says: the first
axis to the first, the second to the second, the normal to the normal; the conjugates turn back, and by way of the XY plane
from ZX to YZ. -/
theorem C106_planes : ∃ q r : Quat, planeQuat .selectZXPlane = some q ∧ planeQuat .selectYZPlane = some r ∧
    q.sq = 1 ∧ r.sq = 1 ∧
    (∀ x y z : ℝ, q.apply ⟨x, y, z⟩ = ⟨y, z, x⟩) ∧ (∀ x y z : ℝ, r.apply ⟨x, y, z⟩ = ⟨z, x, y⟩) ∧
    (∀ x y z : ℝ, q.conj.apply ⟨y, z, x⟩ = ⟨x, y, z⟩) ∧ (∀ x y z : ℝ, r.conj.apply ⟨z, x, y⟩ = ⟨x, y, z⟩) ∧
    (∀ x y z : ℝ, r.apply (q.conj.apply ⟨y, z, x⟩) = ⟨z, x, y⟩) := by
  obtain ⟨q, hq, hqa⟩ := quat_zx
  obtain ⟨r, hr, hra⟩ := quat_yz
  have ne : ∀ u : V3, u.sq = 1 → u ≠ ⟨0, 0, 0⟩ := by rintro u hu rfl; norm_num [V3.sq] at hu
  have X : (⟨1, 0, 0⟩ : V3).sq = 1 := by norm_num [V3.sq]
  have Y : (⟨0, 1, 0⟩ : V3).sq = 1 := by norm_num [V3.sq]
  have Z : (⟨0, 0, 1⟩ : V3).sq = 1 := by norm_num [V3.sq]
  have hh : √2 / 2 * (√2 / 2) = (1 / 2 : ℝ) := sqrt_half
  have hqs : q.sq = 1 := by
    have e : q = quat2coordSystem ⟨1, 0, 0⟩ ⟨0, 1, 0⟩ ⟨0, 0, 1⟩ ⟨1, 0, 0⟩ := (Option.some.inj hq).symm
    rw [e]
    refine (C106_system _ _ _ _ (ne _ X) (ne _ Y) (ne _ Z) (ne _ X) (by norm_num [V3.dot]) (by norm_num [V3.dot]) ?_ ?_).1
    · rw [normalized_self _ X, normalized_self _ Z]
      intro h; have := congrArg V3.x h; simp [comp_neg] at this
    · unfold quat2alignUnit
      rw [normalized_self _ X, normalized_self _ Z, normalized_self _ Y]
      have := (align_core ⟨1, 0, 0⟩ ⟨0, 0, 1⟩ X Z (by intro h; have := congrArg V3.x h; simp [comp_neg] at this)).2.2 ⟨0, 1, 0⟩
        (by norm_num [V3.dot]) (by norm_num [V3.dot])
      rw [this]
      intro h; have := congrArg V3.y h; simp [comp_neg] at this
  have hrs : r.sq = 1 := by
    have e : r = quat2coordSystem ⟨1, 0, 0⟩ ⟨0, 1, 0⟩ ⟨0, 1, 0⟩ ⟨0, 0, 1⟩ := (Option.some.inj hr).symm
    rw [e]
    have hxy : (⟨1, 0, 0⟩ : V3) ≠ -⟨0, 1, 0⟩ := by intro h; have := congrArg V3.x h; simp [comp_neg] at this
    refine (C106_system _ _ _ _ (ne _ X) (ne _ Y) (ne _ Y) (ne _ Z) (by norm_num [V3.dot]) (by norm_num [V3.dot]) ?_ ?_).1
    · rw [normalized_self _ X, normalized_self _ Y]; exact hxy
    · unfold quat2alignUnit
      rw [normalized_self _ X, normalized_self _ Z, normalized_self _ Y]
      obtain ⟨q1, t1, f1⟩ := align_core ⟨1, 0, 0⟩ ⟨0, 1, 0⟩ X Y hxy
      intro h
      have hz := f1 ⟨0, 0, 1⟩ (by norm_num [V3.dot]) (by norm_num [V3.dot])
      have hd := (C106_turn _ q1 ⟨0, 1, 0⟩ ⟨0, 0, 1⟩).1
      rw [h, hz] at hd
      simp [V3.dot, comp_neg] at hd
  refine ⟨q, r, hq, hr, hqs, hrs, fun x y z => hqa _, fun x y z => hra _, fun x y z => ?_, fun x y z => ?_, fun x y z => ?_⟩
  · have := (C106_turn q hqs ⟨x, y, z⟩ ⟨x, y, z⟩).2.2.1
    rwa [hqa] at this
  · have := (C106_turn r hrs ⟨x, y, z⟩ ⟨x, y, z⟩).2.2.1
    rwa [hra] at this
  · have := (C106_turn q hqs ⟨x, y, z⟩ ⟨x, y, z⟩).2.2.1
    rw [hqa] at this
    rw [this, hra]

/-- **C106** (projection): `plane_projection(v, n)` is the point nearest to `v` among those of the plane through the origin
perpendicular to `n`, and the only nearest one. -/
theorem C106_projection (v n : V3) (hn : n ≠ ⟨0, 0, 0⟩) :
    (planeProjection v n).dot n = 0 ∧
      ∀ u : V3, u.dot n = 0 → (v - planeProjection v n).sq ≤ (v - u).sq ∧
        ((v - u).sq = (v - planeProjection v n).sq → u = planeProjection v n) := by
  have hp := abs_pos_of n hn
  have h1 := normalized_sq n hn
  have hm : n = n.normalized.mul n.abs := by
    unfold V3.normalized
    rw [if_neg hp.ne']
    ext <;> simp only [V3.mul] <;> rw [div_mul_cancel₀ _ hp.ne']
  unfold planeProjection
  simp only
  set m := n.normalized with hmdef
  have hdot : ∀ u : V3, u.dot n = u.dot m * n.abs := by
    intro u
    have : u.dot (m.mul n.abs) = u.dot m * n.abs := by simp only [V3.dot, V3.mul]; ring
    rw [← this, ← hm]
  have hz : ∀ u : V3, u.dot n = 0 ↔ u.dot m = 0 := by
    intro u
    rw [hdot]
    exact ⟨fun h => (mul_eq_zero.1 h).resolve_right hp.ne', fun h => by rw [h, zero_mul]⟩
  have hproj : (v - m.mul (v.dot m)).dot m = 0 := by
    have : (v - m.mul (v.dot m)).dot m = v.dot m * (1 - m.sq) := by simp only [V3.dot, V3.mul, V3.sq, comp_sub]; ring
    rw [this, h1]; ring
  refine ⟨(hz _).2 hproj, fun u hu => ?_⟩
  have hu' := (hz u).1 hu
  have key : (v - u).sq = (v - (v - m.mul (v.dot m))).sq + ((v - m.mul (v.dot m)) - u).sq := by
    have e : (v - u).sq - (v - (v - m.mul (v.dot m))).sq - ((v - m.mul (v.dot m)) - u).sq =
        2 * (v.dot m) * ((v - m.mul (v.dot m)).dot m - u.dot m) := by
      simp only [V3.dot, V3.mul, V3.sq, comp_sub]; ring
    rw [hproj, hu'] at e
    linarith
  have hpos : 0 ≤ ((v - m.mul (v.dot m)) - u).sq := by unfold V3.sq; positivity
  refine ⟨by linarith, fun heq => ?_⟩
  have h0 := sq_of_zero _ (show ((v - m.mul (v.dot m)) - u).sq = 0 by linarith)
  have hx := congrArg V3.x h0
  have hy := congrArg V3.y h0
  have hzz := congrArg V3.z h0
  simp only [comp_sub] at hx hy hzz
  refine V3.ext ?_ ?_ ?_
  · simp only [comp_sub]; linarith
  · simp only [comp_sub]; linarith
  · simp only [comp_sub]; linarith

/-- **C106** refuted: X and Y are turned to X and -Y by half a turn about X, but `quat2coord_system` returns zero, which takes
every vector to zero. -/
theorem C106_refuted (v : V3) : (quat2coordSystem ⟨1, 0, 0⟩ ⟨0, 1, 0⟩ ⟨1, 0, 0⟩ ⟨0, -1, 0⟩).apply v = ⟨0, 0, 0⟩ := by
  have X : (⟨1, 0, 0⟩ : V3).sq = 1 := by norm_num [V3.sq]
  have Y : (⟨0, 1, 0⟩ : V3).sq = 1 := by norm_num [V3.sq]
  have Y' : (⟨0, -1, 0⟩ : V3).sq = 1 := by norm_num [V3.sq]
  have hxx : (⟨1, 0, 0⟩ : V3) ≠ -⟨1, 0, 0⟩ := by
    intro h; have := congrArg V3.x h; simp only [comp_neg] at this; norm_num at this
  unfold quat2coordSystem
  simp only [normalized_self _ X, normalized_self _ Y, normalized_self _ Y']
  have := (align_core ⟨1, 0, 0⟩ ⟨1, 0, 0⟩ X X hxx).2.2 ⟨0, 1, 0⟩ (by norm_num [V3.dot]) (by norm_num [V3.dot])
  rw [this, C106_product]
  have ho := C106_opposite ⟨0, 1, 0⟩ ⟨0, -1, 0⟩ (by intro h; have := congrArg V3.y h; simp at this)
    (by rw [normalized_self _ Y, normalized_self _ Y']; ext <;> simp [comp_neg])
  unfold quat2alignUnit at ho
  rw [normalized_self _ Y, normalized_self _ Y'] at ho
  exact ho _

/-! ## Instances -/

theorem sample_ne {a b c : ℝ} (h : a ≠ 0) : (⟨a, b, c⟩ : V3) ≠ ⟨0, 0, 0⟩ := fun e => h (congrArg V3.x e)

/-- Not opposite, since the first components are positive. -/
theorem sample_not_opposite {u v : V3} (hu : 0 < u.x) (hv : 0 < v.x) : u.normalized ≠ -v.normalized := by
  have pos : ∀ w : V3, 0 < w.x → 0 < w.normalized.x := by
    intro w hw
    have hp := abs_pos_of w (fun e => by rw [e] at hw; exact lt_irrefl _ hw)
    unfold V3.normalized
    rw [if_neg hp.ne']
    exact div_pos hw hp
  intro h
  have h1 := congrArg V3.x h
  simp only [comp_neg] at h1
  linarith [pos u hu, pos v hv]

/-- From (1, 2, 3) to (3, 0, -1); (-2, 10, -6) is perpendicular to both. -/
example : (quat2alignUnit ⟨1, 2, 3⟩ ⟨3, 0, -1⟩).apply (V3.normalized ⟨1, 2, 3⟩) = V3.normalized ⟨3, 0, -1⟩ ∧
    (quat2alignUnit ⟨1, 2, 3⟩ ⟨3, 0, -1⟩).apply ⟨-2, 10, -6⟩ = ⟨-2, 10, -6⟩ := by
  obtain ⟨-, h1, h2⟩ := C106_align ⟨1, 2, 3⟩ ⟨3, 0, -1⟩ (sample_ne (by norm_num)) (sample_ne (by norm_num))
    (sample_not_opposite (by norm_num) (by norm_num))
  exact ⟨h1, h2 _ (by norm_num [V3.dot]) (by norm_num [V3.dot])⟩

example (v : V3) : (quat2alignUnit ⟨1, 0, 0⟩ ⟨-1, 0, 0⟩).apply v = ⟨0, 0, 0⟩ :=
  C106_opposite _ _ (sample_ne (by norm_num))
    (by rw [normalized_self _ (by norm_num [V3.sq]), normalized_self _ (by norm_num [V3.sq])]; ext <;> simp [comp_neg]) v

/-- The system of the ZX plane. -/
example : (quat2coordSystem ⟨1, 0, 0⟩ ⟨0, 1, 0⟩ ⟨0, 0, 1⟩ ⟨1, 0, 0⟩).sq = 1 := by
  obtain ⟨q, -, hq, -, h, -⟩ := C106_planes
  obtain rfl : quat2coordSystem ⟨1, 0, 0⟩ ⟨0, 1, 0⟩ ⟨0, 0, 1⟩ ⟨1, 0, 0⟩ = q := Option.some.inj hq
  exact h

example : (planeProjection ⟨1, 2, 3⟩ ⟨2, 1, 0⟩).dot ⟨2, 1, 0⟩ = 0 := (C106_projection ⟨1, 2, 3⟩ ⟨2, 1, 0⟩ (sample_ne (by norm_num))).1

example (v : V3) : (Quat.conj ⟨3 / 5, 4 / 5, 0, 0⟩).apply (Quat.apply ⟨3 / 5, 4 / 5, 0, 0⟩ v) = v :=
  (C106_turn ⟨3 / 5, 4 / 5, 0, 0⟩ (by norm_num [Quat.sq]) v v).2.2.1

example (v : V3) : (Quat.mul ⟨1, 2, 3, 4⟩ ⟨5, 6, 7, 8⟩).apply v = Quat.apply ⟨1, 2, 3, 4⟩ (Quat.apply ⟨5, 6, 7, 8⟩ v) := C106_product _ _ v

end Pygcode
