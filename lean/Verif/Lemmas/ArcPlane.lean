import Verif.Lemmas.ArcOf

/-!
# Plane geometry of arcs in the complex plane
-/

namespace Pygcode
open Complex

/-! ## Centre -/

theorem half_ne {S E : ℂ} (h : S ≠ E) : halfSpan S E ≠ 0 := by
  unfold halfSpan
  intro h0
  exact h (sub_eq_zero.1 (by simpa using h0)).symm

/-- The centre on the right, relative to the start. -/
theorem toRight_eq {S E : ℂ} (h : S ≠ E) (r : ℝ) :
    toRight S E r = halfSpan S E * (-(I * (√(r ^ 2 - ‖halfSpan S E‖ ^ 2) / ‖halfSpan S E‖ : ℝ))) := by
  unfold toRight
  push_cast
  ring

theorem norm_one_add (k : ℝ) : ‖(1 : ℂ) + I * k‖ = √(1 + k ^ 2) := by
  rw [Complex.norm_eq_sqrt_sq_add_sq]
  simp

theorem norm_one_sub (k : ℝ) : ‖(1 : ℂ) - I * k‖ = √(1 + k ^ 2) := by
  have := norm_one_add (-k)
  rw [show ((-k : ℝ) : ℂ) = -(k : ℂ) by push_cast; rfl, mul_neg, ← sub_eq_add_neg] at this
  rw [this, neg_sq]

theorem radius_eq {S E : ℂ} (h : S ≠ E) {r : ℝ} (hr : ‖halfSpan S E‖ ≤ r) :
    ‖halfSpan S E‖ * √(1 + (√(r ^ 2 - ‖halfSpan S E‖ ^ 2) / ‖halfSpan S E‖) ^ 2) = r := by
  have h0 : 0 < ‖halfSpan S E‖ := norm_pos_iff.2 (half_ne h)
  have h1 : 0 ≤ r ^ 2 - ‖halfSpan S E‖ ^ 2 := by nlinarith
  rw [div_pow, Real.sq_sqrt h1]
  have : 1 + (r ^ 2 - ‖halfSpan S E‖ ^ 2) / ‖halfSpan S E‖ ^ 2 = (r / ‖halfSpan S E‖) ^ 2 := by
    field_simp; ring
  rw [this, Real.sqrt_sq (div_nonneg (h0.le.trans hr) h0.le)]
  field_simp

/-- Start and end, seen from the two centres. -/
theorem from_left {S E : ℂ} (h : S ≠ E) (r : ℝ) :
    let k : ℝ := √(r ^ 2 - ‖halfSpan S E‖ ^ 2) / ‖halfSpan S E‖
    S - leftCenter S E r = -(halfSpan S E * (1 + I * k)) ∧ E - leftCenter S E r = halfSpan S E * (1 - I * k) := by
  intro k
  unfold leftCenter
  rw [toRight_eq h]
  constructor
  · ring
  · have : E = S + 2 * halfSpan S E := by unfold halfSpan; ring
    nth_rw 1 [this]
    ring

theorem from_right {S E : ℂ} (h : S ≠ E) (r : ℝ) :
    let k : ℝ := √(r ^ 2 - ‖halfSpan S E‖ ^ 2) / ‖halfSpan S E‖
    S - rightCenter S E r = -(halfSpan S E * (1 - I * k)) ∧ E - rightCenter S E r = halfSpan S E * (1 + I * k) := by
  intro k
  unfold rightCenter
  rw [toRight_eq h]
  constructor
  · ring
  · have : E = S + 2 * halfSpan S E := by unfold halfSpan; ring
    nth_rw 1 [this]
    ring

theorem left_dist {S E : ℂ} (h : S ≠ E) {r : ℝ} (hr : ‖halfSpan S E‖ ≤ r) :
    ‖S - leftCenter S E r‖ = r ∧ ‖E - leftCenter S E r‖ = r := by
  obtain ⟨h1, h2⟩ := from_left h r
  rw [h1, h2, norm_neg, norm_mul, norm_mul, norm_one_add, norm_one_sub, radius_eq h hr]
  exact ⟨rfl, rfl⟩

theorem right_dist {S E : ℂ} (h : S ≠ E) {r : ℝ} (hr : ‖halfSpan S E‖ ≤ r) :
    ‖S - rightCenter S E r‖ = r ∧ ‖E - rightCenter S E r‖ = r := by
  obtain ⟨h1, h2⟩ := from_right h r
  rw [h1, h2, norm_neg, norm_mul, norm_mul, norm_one_add, norm_one_sub, radius_eq h hr]
  exact ⟨rfl, rfl⟩

theorem center_same (S : ℂ) (r : ℝ) : leftCenter S S r = S ∧ rightCenter S S r = S := by
  unfold leftCenter rightCenter toRight halfSpan
  simp

/-- There are only two points at the same distance from start and end. -/
theorem two_centers {S E c : ℂ} (h : S ≠ E) {r : ℝ} (h1 : ‖S - c‖ = r) (h2 : ‖E - c‖ = r) :
    c = leftCenter S E r ∨ c = rightCenter S E r := by
  set m := halfSpan S E with hm
  have hm0 : m ≠ 0 := half_ne h
  have hE : E = S + 2 * m := by rw [hm]; unfold halfSpan; ring
  -- write c relative to the middle in units of the half span
  set z := (c - S - m) / m with hz
  have hc : c = S + m + m * z := by rw [hz]; field_simp; ring
  have e1 : ‖1 + z‖ * ‖m‖ = r := by
    rw [← norm_mul, ← h1, ← norm_neg, hc]; congr 1; ring
  have e2 : ‖1 - z‖ * ‖m‖ = r := by
    rw [← norm_mul, ← h2, hc, hE]; congr 1; ring
  have hmp : 0 < ‖m‖ := norm_pos_iff.2 hm0
  have e3 : ‖1 + z‖ ^ 2 = ‖1 - z‖ ^ 2 := by
    have : ‖1 + z‖ = ‖1 - z‖ := mul_right_cancel₀ hmp.ne' (e1.trans e2.symm)
    rw [this]
  rw [Complex.sq_norm, Complex.sq_norm, Complex.normSq_apply, Complex.normSq_apply] at e3
  simp only [Complex.add_re, Complex.one_re, Complex.add_im, Complex.one_im, zero_add, Complex.sub_re,
    Complex.sub_im, zero_sub] at e3
  have hre : z.re = 0 := by nlinarith
  have e4 : ‖1 + z‖ ^ 2 = 1 + z.im ^ 2 := by
    rw [Complex.sq_norm, Complex.normSq_apply]
    simp only [Complex.add_re, Complex.one_re, Complex.add_im, Complex.one_im, zero_add, hre]
    ring
  have e5 : r ^ 2 - ‖m‖ ^ 2 = (z.im * ‖m‖) ^ 2 := by
    rw [← e1, mul_pow, e4]; ring
  have hzi : z = I * z.im := by
    apply Complex.ext
    · simp [hre]
    · simp
  unfold leftCenter rightCenter
  rw [toRight_eq h, ← hm, e5, Real.sqrt_sq_eq_abs, abs_mul, abs_of_pos hmp, mul_div_cancel_right₀ _ hmp.ne', hc]
  rcases abs_cases z.im with ⟨h3, -⟩ | ⟨h3, -⟩ <;> rw [h3]
  · left
    nth_rw 1 [hzi]; ring
  · right
    nth_rw 1 [hzi]; push_cast; ring

/-! ## Sweep -/

theorem fmod_range (a : ℝ) {m : ℝ} (hm : 0 < m) : 0 ≤ fmod a m ∧ fmod a m < m := by
  unfold fmod
  have h1 := Int.floor_le (a / m)
  have h2 := Int.lt_floor_add_one (a / m)
  rw [le_div_iff₀ hm] at h1
  rw [div_lt_iff₀ hm] at h2
  constructor <;> nlinarith

theorem exp_fmod (a : ℝ) : exp (-((fmod a (2 * Real.pi) : ℝ) * I)) = exp (-(a * I)) := by
  unfold fmod
  rw [Complex.exp_eq_exp_iff_exists_int]
  refine ⟨⌊a / (2 * Real.pi)⌋, ?_⟩
  push_cast
  ring

theorem exp_fmod' (a : ℝ) : exp (((fmod a (2 * Real.pi) : ℝ) * I)) = exp (a * I) := by
  have := congrArg (·⁻¹) (exp_fmod a)
  simpa [← Complex.exp_neg] using this

theorem polar (z : ℂ) : (‖z‖ : ℂ) * exp (arg z * I) = z := by
  exact Complex.norm_mul_exp_arg_mul_I z

/-- The computed angle turns the start into the end. -/
theorem turn_cw (u v : ℂ) (h : ‖u‖ = ‖v‖) :
    exp (-((fmod (arg u - arg v) (2 * Real.pi) : ℝ) * I)) * u = v := by
  rw [exp_fmod]
  nth_rw 2 [← polar u]
  rw [← polar v, h]
  rw [mul_left_comm, ← Complex.exp_add]
  congr 2
  rw [polar v]
  push_cast
  ring

theorem turn_ccw (u v : ℂ) (h : ‖u‖ = ‖v‖) :
    exp (-((-fmod (arg v - arg u) (2 * Real.pi) : ℝ) * I)) * u = v := by
  rw [show -(((-fmod (arg v - arg u) (2 * Real.pi) : ℝ) : ℂ) * I) =
    ((fmod (arg v - arg u) (2 * Real.pi) : ℝ) : ℂ) * I by push_cast; ring, exp_fmod']
  nth_rw 2 [← polar u]
  rw [← polar v, h]
  rw [mul_left_comm, ← Complex.exp_add]
  congr 2
  rw [polar v]
  push_cast
  ring

/-! ## Segments -/

/-- A segment whose ends are no further than `hi` and, along some direction, no closer than `lo`. -/
theorem segment_bounds {P Q u : ℂ} {lo hi : ℝ} (hu : ‖u‖ = 1) (hP : ‖P‖ ≤ hi) (hQ : ‖Q‖ ≤ hi)
    (hP' : lo ≤ (P * (starRingEnd ℂ) u).re) (hQ' : lo ≤ (Q * (starRingEnd ℂ) u).re) (t : ℝ) (h0 : 0 ≤ t) (h1 : t ≤ 1) :
    lo ≤ ‖P + t * (Q - P)‖ ∧ ‖P + t * (Q - P)‖ ≤ hi := by
  have he : P + t * (Q - P) = ((1 - t : ℝ) : ℂ) * P + (t : ℂ) * Q := by push_cast; ring
  rw [he]
  constructor
  · have h2 : lo ≤ ((((1 - t : ℝ) : ℂ) * P + (t : ℂ) * Q) * (starRingEnd ℂ) u).re := by
      rw [show (((1 - t : ℝ) : ℂ) * P + (t : ℂ) * Q) * (starRingEnd ℂ) u =
        ((1 - t : ℝ) : ℂ) * (P * (starRingEnd ℂ) u) + (t : ℂ) * (Q * (starRingEnd ℂ) u) by ring]
      rw [Complex.add_re, Complex.re_ofReal_mul, Complex.re_ofReal_mul]
      nlinarith
    refine h2.trans ((Complex.re_le_norm _).trans ?_)
    rw [norm_mul, Complex.norm_conj, hu, mul_one]
  · refine (norm_add_le _ _).trans ?_
    rw [norm_mul, norm_mul, Complex.norm_real, Complex.norm_real, Real.norm_of_nonneg h0,
      Real.norm_of_nonneg (by linarith)]
    nlinarith [norm_nonneg P, norm_nonneg Q]

/-- Unit vector at an angle, clockwise. -/
noncomputable def cw (θ : ℝ) : ℂ := exp (-(θ * I))

theorem norm_cw (θ : ℝ) : ‖cw θ‖ = 1 := by
  unfold cw
  rw [show -((θ : ℂ) * I) = ((-θ : ℝ) : ℂ) * I by push_cast; ring]
  exact Complex.norm_exp_ofReal_mul_I _

theorem cw_add (a b : ℝ) : cw (a + b) = cw a * cw b := by
  unfold cw
  rw [← Complex.exp_add]
  congr 1
  push_cast
  ring

theorem cw_zero : cw 0 = 1 := by simp [cw]

theorem cw_conj (a b : ℝ) : (cw a * (starRingEnd ℂ) (cw b)).re = Real.cos (a - b) := by
  have h : (starRingEnd ℂ) (cw b) = cw (-b) := by
    unfold cw
    rw [← Complex.exp_conj]
    congr 1
    simp
  rw [h, ← cw_add]
  unfold cw
  rw [show -(((a + -b : ℝ) : ℂ) * I) = ((b - a : ℝ) : ℂ) * I by push_cast; ring]
  rw [Complex.exp_ofReal_mul_I_re, ← Real.cos_neg, neg_sub]

end Pygcode
