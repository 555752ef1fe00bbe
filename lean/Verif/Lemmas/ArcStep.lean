import Verif.Lemmas.ArcMethod
import Mathlib.Analysis.Convex.SpecificFunctions.Deriv
import Mathlib.Analysis.SpecialFunctions.Trigonometric.Bounds

/-!
# Lines and arcs run through in step

Distances between a point of a line and the point of the arc after the same part of the sweep.  All lines are
given by half a wedge `a`, on the unit circle; `τ` is the tangent of a quarter of the wedge.
-/

namespace Pygcode

/-- `cos a` and `sin a` by the tangent of `a / 2`, and what a smaller angle is compared with. -/
structure Half (a τ : ℝ) : Prop where
  pos : 0 ≤ τ
  le : τ ≤ 1
  cos : (1 + τ ^ 2) * Real.cos a = 1 - τ ^ 2
  sin : (1 + τ ^ 2) * Real.sin a = 2 * τ
  arc : a ≤ 2 * τ

theorem half_tan {a : ℝ} (h0 : 0 ≤ a) (h1 : a ≤ Real.pi / 2) : Half a (Real.tan (a / 2)) := by
  have hpi := Real.pi_pos
  have hc : 0 < Real.cos (a / 2) := Real.cos_pos_of_mem_Ioo ⟨by linarith, by linarith⟩
  have ht := tan_quarter (2 * a) (by rw [show 2 * a / 4 = a / 2 by ring]; exact hc.ne')
  rw [show 2 * a / 4 = a / 2 by ring, show 2 * a / 2 = a by ring] at ht
  have hs : 0 ≤ Real.sin (a / 2) := Real.sin_nonneg_of_nonneg_of_le_pi (by linarith) (by linarith)
  have htc : Real.tan (a / 2) * Real.cos (a / 2) = Real.sin (a / 2) := Real.tan_mul_cos hc.ne'
  have hsq := Real.sin_sq_add_cos_sq (a / 2)
  refine ⟨by rw [Real.tan_eq_sin_div_cos]; positivity, ?_, ht, ?_, ?_⟩
  · have h3 : 0 ≤ Real.cos a := Real.cos_nonneg_of_mem_Icc ⟨by linarith, h1⟩
    have : 0 ≤ (1 + Real.tan (a / 2) ^ 2) * Real.cos a := by positivity
    nlinarith
  · have h2 : Real.sin a = 2 * Real.sin (a / 2) * Real.cos (a / 2) := by
      rw [← Real.sin_two_mul]; congr 1; ring
    have h3 : (1 + Real.tan (a / 2) ^ 2) * Real.cos (a / 2) ^ 2 = 1 := by
      have : Real.tan (a / 2) ^ 2 * Real.cos (a / 2) ^ 2 = Real.sin (a / 2) ^ 2 := by rw [← mul_pow, htc]
      linarith
    rw [h2, ← htc]
    linear_combination 2 * Real.tan (a / 2) * h3
  · have := Real.le_tan (x := a / 2) (by linarith) (by linarith)
    linarith

theorem sin_part {a t : ℝ} (h0 : 0 ≤ a) (h1 : a ≤ Real.pi) (ht0 : 0 ≤ t) (ht1 : t ≤ 1) :
    t * Real.sin a ≤ Real.sin (t * a) := by
  have := strictConcaveOn_sin_Icc.concaveOn.2 (x := 0) (y := a) ⟨le_refl _, Real.pi_pos.le⟩ ⟨h0, h1⟩
    (sub_nonneg.2 ht1) ht0 (by ring)
  simpa using this

theorem cos_part {a t : ℝ} (h0 : 0 ≤ a) (h1 : a ≤ Real.pi / 2) (ht0 : 0 ≤ t) (ht1 : t ≤ 1) :
    1 - Real.cos (t * a) ≤ t * (1 - Real.cos a) := by
  have hpi := Real.pi_pos
  have := strictConcaveOn_cos_Icc.concaveOn.2 (x := 0) (y := a) ⟨by linarith, by linarith⟩ ⟨by linarith, h1⟩
    (sub_nonneg.2 ht1) ht0 (by ring)
  simp at this
  linarith

theorem cos_sq_part {a t : ℝ} (h0 : 0 ≤ a) (h1 : a ≤ Real.pi) (ht0 : 0 ≤ t) (ht1 : t ≤ 1) :
    t ^ 2 * (1 - Real.cos a) ≤ 1 - Real.cos (t * a) := by
  have h := sin_part (a := a / 2) (t := t) (by linarith) (by linarith [Real.pi_pos]) ht0 ht1
  have h2 : 0 ≤ t * Real.sin (a / 2) :=
    mul_nonneg ht0 (Real.sin_nonneg_of_nonneg_of_le_pi (by linarith) (by linarith [Real.pi_pos]))
  have e : ∀ x : ℝ, 1 - Real.cos x = 2 * Real.sin (x / 2) ^ 2 := by
    intro x
    have := Real.cos_sq' (x / 2)
    have h3 := Real.cos_two_mul (x / 2)
    rw [show 2 * (x / 2) = x by ring] at h3
    linarith
  rw [e a, e (t * a), show t * a / 2 = t * (a / 2) by ring]
  nlinarith [mul_self_le_mul_self h2 h]

theorem sin_le_part {a t τ : ℝ} (h : Half a τ) (h0 : 0 ≤ a) (ht0 : 0 ≤ t) : Real.sin (t * a) ≤ 2 * τ * t := by
  have := Real.sin_le (x := t * a) (by positivity)
  nlinarith [h.arc]

/-- A chord and its arc. -/
theorem near_chord {a t : ℝ} (h0 : 0 ≤ a) (h1 : a ≤ Real.pi / 2) (ht0 : 0 ≤ t) (ht1 : t ≤ 1) :
    (Real.cos a - Real.cos (t * a)) ^ 2 + (t * Real.sin a - Real.sin (t * a)) ^ 2 ≤ (1 - Real.cos a) ^ 2 := by
  have hpi := Real.pi_pos
  have H := half_tan h0 h1
  set τ := Real.tan (a / 2)
  have hs := sin_part h0 (by linarith) ht0 ht1
  have hs' := sin_le_part H h0 ht0
  have hc := cos_sq_part h0 (by linarith) ht0 ht1
  have hc1 : Real.cos a ≤ Real.cos (t * a) :=
    Real.cos_le_cos_of_nonneg_of_le_pi (by positivity) (by linarith) (by nlinarith)
  -- along the chord
  have hK : 0 ≤ 1 - Real.cos a := by linarith [Real.cos_le_one a]
  have hT : Real.sin (t * a) - t * Real.sin a ≤ t * (1 - Real.cos a) := by
    have h2 : 2 * τ ≤ Real.sin a + (1 - Real.cos a) := by
      have h3 : (1 + τ ^ 2) * (Real.sin a + (1 - Real.cos a) - 2 * τ) = 2 * τ ^ 2 * (1 - τ) := by
        linear_combination H.sin - H.cos
      have h4 : 0 ≤ 2 * τ ^ 2 * (1 - τ) := mul_nonneg (by positivity) (sub_nonneg.2 H.le)
      have h5 : 0 < 1 + τ ^ 2 := by positivity
      nlinarith
    nlinarith
  set K := 1 - Real.cos a with hKd
  have hX0 : 0 ≤ Real.cos (t * a) - Real.cos a := by linarith
  have hX : Real.cos (t * a) - Real.cos a ≤ K * (1 - t ^ 2) := by nlinarith
  have hT0 : 0 ≤ Real.sin (t * a) - t * Real.sin a := by linarith
  have e1 : (Real.cos a - Real.cos (t * a)) ^ 2 ≤ (K * (1 - t ^ 2)) ^ 2 := by
    rw [← neg_sq, neg_sub]; exact pow_le_pow_left₀ hX0 hX 2
  have e2 : (t * Real.sin a - Real.sin (t * a)) ^ 2 ≤ (t * K) ^ 2 := by
    rw [← neg_sq, neg_sub]; exact pow_le_pow_left₀ hT0 hT 2
  have ht2 : t ^ 2 ≤ 1 := by nlinarith
  have e3 : (K * (1 - t ^ 2)) ^ 2 + (t * K) ^ 2 = K ^ 2 * (1 - t ^ 2 * (1 - t ^ 2)) := by ring
  have e4 : 0 ≤ K ^ 2 * (t ^ 2 * (1 - t ^ 2)) := by
    have : 0 ≤ 1 - t ^ 2 := by linarith
    positivity
  nlinarith

/-- A tangent and its arc. -/
theorem near_tangent {a t : ℝ} (h0 : 0 ≤ a) (h1 : a < Real.pi / 2) (ht0 : 0 ≤ t) (ht1 : t ≤ 1) :
    (1 - Real.cos (t * a)) ^ 2 + (t * Real.tan a - Real.sin (t * a)) ^ 2 ≤ (1 / Real.cos a - 1) ^ 2 := by
  have hpi := Real.pi_pos
  have hc : 0 < Real.cos a := Real.cos_pos_of_mem_Ioo ⟨by linarith, h1⟩
  have hs := sin_part h0 (by linarith) ht0 ht1
  have hcp := cos_part h0 h1.le ht0 ht1
  have hct := Real.cos_le_one (t * a)
  have hT0 : 0 ≤ t * Real.tan a - Real.sin (t * a) := by
    have h2 := Real.sin_le (x := t * a) (by positivity)
    have h3 := Real.le_tan h0 h1
    nlinarith
  have hT : t * Real.tan a - Real.sin (t * a) ≤ t * (Real.tan a - Real.sin a) := by linarith
  have e1 : (1 - Real.cos (t * a)) ^ 2 ≤ (t * (1 - Real.cos a)) ^ 2 := pow_le_pow_left₀ (by linarith) hcp 2
  have e2 : (t * Real.tan a - Real.sin (t * a)) ^ 2 ≤ (t * (Real.tan a - Real.sin a)) ^ 2 :=
    pow_le_pow_left₀ hT0 hT 2
  have e3 : (t * (1 - Real.cos a)) ^ 2 + (t * (Real.tan a - Real.sin a)) ^ 2 = t ^ 2 * (1 / Real.cos a - 1) ^ 2 := by
    rw [Real.tan_eq_sin_div_cos]
    have hsq := Real.sin_sq_add_cos_sq a
    field_simp
    rw [show Real.sin a ^ 2 = 1 - Real.cos a ^ 2 by linarith]
    ring
  have e4 : t ^ 2 * (1 / Real.cos a - 1) ^ 2 ≤ 1 * (1 / Real.cos a - 1) ^ 2 :=
    mul_le_mul_of_nonneg_right (by nlinarith) (sq_nonneg _)
  linarith

/-- Bounds for the lines of the mid method. -/
theorem mid_bounds {a t τ : ℝ} (H : Half a τ) (h0 : 0 ≤ a) (h1 : a ≤ Real.pi / 2) (ht0 : 0 ≤ t) (ht1 : t ≤ 1) :
    t ^ 2 * τ ^ 2 ≤ 1 - Real.cos (t * a) ∧ 1 - Real.cos (t * a) ≤ t * (τ ^ 2 + τ ^ 2 * Real.cos a) ∧
      0 ≤ 2 * τ * t - Real.sin (t * a) ∧ 2 * τ * t - Real.sin (t * a) ≤ t * (τ ^ 2 * Real.sin a) := by
  have hpi := Real.pi_pos
  have hs := sin_part h0 (by linarith) ht0 ht1
  have hs' := sin_le_part H h0 ht0
  have hc := cos_sq_part h0 (by linarith) ht0 ht1
  have hcp := cos_part h0 h1 ht0 ht1
  have hk : τ ^ 2 ≤ 1 := by nlinarith [H.pos, H.le]
  have hca : 1 - Real.cos a = τ ^ 2 + τ ^ 2 * Real.cos a := by linarith [H.cos]
  have hsa : 2 * τ - Real.sin a = τ ^ 2 * Real.sin a := by linarith [H.sin]
  have hcn : 0 ≤ Real.cos a := Real.cos_nonneg_of_mem_Icc ⟨by linarith, h1⟩
  refine ⟨?_, by rw [← hca]; exact hcp, by linarith, ?_⟩
  · refine le_trans ?_ hc
    rw [hca]
    nlinarith [mul_nonneg (sq_nonneg t) (mul_nonneg (sq_nonneg τ) hcn)]
  · rw [← hsa]; linarith

/-- A line of the mid method, from its middle. -/
theorem near_mid {a t τ : ℝ} (H : Half a τ) (h0 : 0 ≤ a) (h1 : a ≤ Real.pi / 2) (ht0 : 0 ≤ t) (ht1 : t ≤ 1) :
    (1 - τ ^ 2 - Real.cos (t * a)) ^ 2 + (2 * τ * t - Real.sin (t * a)) ^ 2 ≤ (τ ^ 2) ^ 2 := by
  obtain ⟨b1, b2, b3, b4⟩ := mid_bounds H h0 h1 ht0 ht1
  have hpi := Real.pi_pos
  have hcn : 0 ≤ Real.cos a := Real.cos_nonneg_of_mem_Icc ⟨by linarith, h1⟩
  have hsq := Real.sin_sq_add_cos_sq a
  have hk0 : 0 ≤ τ ^ 2 := sq_nonneg _
  set κ := τ ^ 2
  set X := 1 - Real.cos (t * a) with hX
  set T := 2 * τ * t - Real.sin (t * a)
  have ht2 : t ^ 2 ≤ 1 := by nlinarith
  have eT : T ^ 2 ≤ (t * (κ * Real.sin a)) ^ 2 := pow_le_pow_left₀ b3 b4 2
  have e0 : 1 - κ - Real.cos (t * a) = X - κ := by rw [hX]; ring
  rw [e0]
  have hκ2 : 0 ≤ κ ^ 2 := sq_nonneg _
  by_cases hx : κ ≤ X
  · have h2 : X - κ ≤ κ * Real.cos a := by nlinarith [mul_nonneg hk0 hcn]
    have e1 : (X - κ) ^ 2 ≤ (κ * Real.cos a) ^ 2 := pow_le_pow_left₀ (by linarith) h2 2
    have e2 : (t * (κ * Real.sin a)) ^ 2 ≤ (κ * Real.sin a) ^ 2 := by
      rw [mul_pow]; nlinarith [sq_nonneg (κ * Real.sin a)]
    have e3 : (κ * Real.cos a) ^ 2 + (κ * Real.sin a) ^ 2 = κ ^ 2 := by
      linear_combination κ ^ 2 * hsq
    linarith
  · have h2 : κ - X ≤ κ * (1 - t ^ 2) := by nlinarith
    have e1 : (X - κ) ^ 2 ≤ (κ * (1 - t ^ 2)) ^ 2 := by
      rw [← neg_sq, neg_sub]; exact pow_le_pow_left₀ (by linarith) h2 2
    have e2 : (t * (κ * Real.sin a)) ^ 2 ≤ t ^ 2 * κ ^ 2 := by
      have : Real.sin a ^ 2 ≤ 1 := by nlinarith [sq_nonneg (Real.cos a)]
      have h3 : 0 ≤ t ^ 2 * κ ^ 2 := by positivity
      calc (t * (κ * Real.sin a)) ^ 2 = t ^ 2 * κ ^ 2 * Real.sin a ^ 2 := by ring
        _ ≤ t ^ 2 * κ ^ 2 * 1 := mul_le_mul_of_nonneg_left this h3
        _ = _ := by ring
    have e3 : (κ * (1 - t ^ 2)) ^ 2 + t ^ 2 * κ ^ 2 = κ ^ 2 - κ ^ 2 * (t ^ 2 * (1 - t ^ 2)) := by ring
    have e4 : 0 ≤ κ ^ 2 * (t ^ 2 * (1 - t ^ 2)) := by
      have : 0 ≤ 1 - t ^ 2 := by linarith
      positivity
    linarith

/-- The first line of the mid method. -/
theorem near_mid_first {a t τ : ℝ} (H : Half a τ) (h0 : 0 ≤ a) (h1 : a ≤ Real.pi / 2) (ht0 : 0 ≤ t) (ht1 : t ≤ 1) :
    (1 - τ ^ 2 * t - Real.cos (t * a)) ^ 2 + (2 * τ * t - Real.sin (t * a)) ^ 2 ≤ (τ ^ 2) ^ 2 := by
  obtain ⟨b1, b2, b3, b4⟩ := mid_bounds H h0 h1 ht0 ht1
  have hpi := Real.pi_pos
  have hcn : 0 ≤ Real.cos a := Real.cos_nonneg_of_mem_Icc ⟨by linarith, h1⟩
  have hsq := Real.sin_sq_add_cos_sq a
  have hk0 : 0 ≤ τ ^ 2 := sq_nonneg _
  set κ := τ ^ 2
  set X := 1 - Real.cos (t * a) with hX
  set T := 2 * τ * t - Real.sin (t * a)
  have ht2 : t ^ 2 ≤ 1 := by nlinarith
  have eT : T ^ 2 ≤ (t * (κ * Real.sin a)) ^ 2 := pow_le_pow_left₀ b3 b4 2
  have e0 : 1 - κ * t - Real.cos (t * a) = X - κ * t := by rw [hX]; ring
  rw [e0]
  have hκ2 : 0 ≤ κ ^ 2 := sq_nonneg _
  by_cases hx : κ * t ≤ X
  · have h2 : X - κ * t ≤ t * (κ * Real.cos a) := by linarith
    have e1 : (X - κ * t) ^ 2 ≤ (t * (κ * Real.cos a)) ^ 2 := pow_le_pow_left₀ (by linarith) h2 2
    have e3 : (t * (κ * Real.cos a)) ^ 2 + (t * (κ * Real.sin a)) ^ 2 = t ^ 2 * κ ^ 2 := by
      linear_combination t ^ 2 * κ ^ 2 * hsq
    nlinarith
  · have h2 : κ * t - X ≤ κ * (t * (1 - t)) := by nlinarith
    have e1 : (X - κ * t) ^ 2 ≤ (κ * (t * (1 - t))) ^ 2 := by
      rw [← neg_sq, neg_sub]; exact pow_le_pow_left₀ (by linarith) h2 2
    have e2 : (t * (κ * Real.sin a)) ^ 2 ≤ t ^ 2 * κ ^ 2 := by
      have : Real.sin a ^ 2 ≤ 1 := by nlinarith [sq_nonneg (Real.cos a)]
      have h3 : 0 ≤ t ^ 2 * κ ^ 2 := by positivity
      calc (t * (κ * Real.sin a)) ^ 2 = t ^ 2 * κ ^ 2 * Real.sin a ^ 2 := by ring
        _ ≤ t ^ 2 * κ ^ 2 * 1 := mul_le_mul_of_nonneg_left this h3
        _ = _ := by ring
    have e3 : (κ * (t * (1 - t))) ^ 2 + t ^ 2 * κ ^ 2 = κ ^ 2 - κ ^ 2 * ((1 - t) * (1 + t - t ^ 2 * (1 - t))) := by ring
    have e4 : 0 ≤ κ ^ 2 * ((1 - t) * (1 + t - t ^ 2 * (1 - t))) := by
      have h5 : 0 ≤ 1 - t := by linarith
      have h6 : 0 ≤ 1 + t - t ^ 2 * (1 - t) := by nlinarith
      positivity
    linarith

end Pygcode
