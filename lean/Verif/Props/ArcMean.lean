import Verif.Props.Arc

/-!
# The centre used for an arc with I, J, K (C121)
-/

namespace Pygcode
open Pl

/-! ## Specification -/

/-- The centre `c` of an arc from `S` to `E` for which the centre `C` is named: as far from both ends as `C` is on average, and of
all such places the nearest to `C`. -/
def MeanCentre (S E C c : ℂ) : Prop :=
  ‖S - c‖ = (‖S - C‖ + ‖E - C‖) / 2 ∧ ‖E - c‖ = (‖S - C‖ + ‖E - C‖) / 2 ∧
    ∀ z : ℂ, ‖S - z‖ = (‖S - C‖ + ‖E - C‖) / 2 → ‖E - z‖ = (‖S - C‖ + ‖E - C‖) / 2 → ‖c - C‖ ≤ ‖z - C‖

/-- The named centre is not on the line through both ends outside them. -/
def OneCentre (S E C : ℂ) : Prop := ∀ t : ℝ, C = S + t * (E - S) → 0 ≤ t ∧ t ≤ 1

/-! ## Proof -/

theorem MeanCentre.swap {S E C c : ℂ} (h : MeanCentre S E C c) : MeanCentre E S C c := by
  obtain ⟨h1, h2, h3⟩ := h
  rw [add_comm] at h1 h2
  refine ⟨h2, h1, fun z z1 z2 => h3 z ?_ ?_⟩
  · rwa [add_comm] at z2
  · rwa [add_comm] at z1

/-- A centre that is equally far from both ends is itself used. -/
theorem MeanCentre.fits {S E C c : ℂ} (h : MeanCentre S E C c) (he : ‖S - C‖ = ‖E - C‖) : c = C := by
  have := h.2.2 C (by rw [he]; ring) (by rw [he]; ring)
  rw [sub_self, norm_zero] at this
  exact sub_eq_zero.1 (norm_le_zero_iff.1 this)

theorem norm_sq_mk (a b : ℝ) : ‖(a + b * Complex.I : ℂ)‖ ^ 2 = a ^ 2 + b ^ 2 := by
  rw [Complex.sq_norm, Complex.normSq_apply]
  simp
  ring

/-- Coordinates along the span and across it. -/
theorem frame_exists {S E : ℂ} (h : S ≠ E) (C : ℂ) : ∃ d e : ℝ, ∀ z : ℝ × ℝ,
    (S + halfSpan S E + halfSpan S E / (‖halfSpan S E‖ : ℝ) * (z.1 + z.2 * Complex.I) - C =
      halfSpan S E / (‖halfSpan S E‖ : ℝ) * ((z.1 - d : ℝ) + (z.2 - e : ℝ) * Complex.I)) := by
  have hk := half_ne h
  have hn : (‖halfSpan S E‖ : ℂ) ≠ 0 := by exact_mod_cast norm_ne_zero_iff.2 hk
  set u := halfSpan S E / (‖halfSpan S E‖ : ℝ) with hu
  have hu0 : u ≠ 0 := div_ne_zero hk hn
  refine ⟨((C - S - halfSpan S E) / u).re, ((C - S - halfSpan S E) / u).im, fun z => ?_⟩
  have : C - S - halfSpan S E = u * ((((C - S - halfSpan S E) / u).re : ℝ) + (((C - S - halfSpan S E) / u).im : ℝ) * Complex.I) := by
    rw [Complex.re_add_im, mul_div_cancel₀ _ hu0]
  push_cast
  linear_combination -this

theorem unit_norm {S E : ℂ} (h : S ≠ E) : ‖halfSpan S E / ((‖halfSpan S E‖ : ℝ) : ℂ)‖ = 1 := by
  rw [norm_div, Complex.norm_real, norm_norm, div_self (norm_ne_zero_iff.2 (half_ne h))]

theorem alongSpan {S E C : ℂ} {t : ℝ} (hC : C = S + t * (E - S)) : ‖S - C‖ = |t| * ‖E - S‖ ∧ ‖E - C‖ = |1 - t| * ‖E - S‖ := by
  constructor
  · rw [hC, show S - (S + t * (E - S)) = -((t : ℂ) * (E - S)) by ring, norm_neg, norm_mul, Complex.norm_real, Real.norm_eq_abs]
  · rw [hC, show E - (S + t * (E - S)) = ((1 - t : ℝ) : ℂ) * (E - S) by push_cast; ring, norm_mul, Complex.norm_real, Real.norm_eq_abs]

/-- A centre that is equally far from both ends is not outside them. -/
theorem OneCentre.of_fits {S E C : ℂ} (h : S ≠ E) (he : ‖S - C‖ = ‖E - C‖) : OneCentre S E C := by
  intro t hC
  obtain ⟨h1, h2⟩ := alongSpan hC
  rw [h1, h2] at he
  have := mul_right_cancel₀ (norm_ne_zero_iff.2 (sub_ne_zero.2 h.symm)) he
  rcases abs_eq_abs.1 this with h3 | h3
  · constructor <;> linarith
  · linarith

/-- There is one such place at most, unless the named centre is on the line through both ends and outside them. -/
theorem mean_unique {S E C c c' : ℂ} (h : S ≠ E) (ho : OneCentre S E C) (m : MeanCentre S E C c) (m' : MeanCentre S E C c') :
    c = c' := by
  by_cases hC : ∃ t : ℝ, C = S + t * (E - S)
  · obtain ⟨t, ht⟩ := hC
    obtain ⟨t0, t1⟩ := ho t ht
    obtain ⟨d1, d2⟩ := alongSpan ht
    have hr : (‖S - C‖ + ‖E - C‖) / 2 = ‖halfSpan S E‖ := by
      rw [d1, d2, abs_of_nonneg t0, abs_of_nonneg (sub_nonneg.2 t1)]
      unfold halfSpan
      rw [norm_div]
      simp
      ring
    have e0 : toRight S E ‖halfSpan S E‖ = 0 := by unfold toRight; simp
    have mid : ∀ z : ℂ, MeanCentre S E C z → z = S + halfSpan S E := by
      intro z hz
      rcases two_centers h (hz.1.trans hr) (hz.2.1.trans hr) with k | k <;> rw [k]
      · unfold leftCenter; rw [e0, sub_zero]
      · unfold rightCenter; rw [e0, add_zero]
    rw [mid c m, mid c' m']
  replace hC : ∀ t : ℝ, C ≠ S + t * (E - S) := fun t ht => hC ⟨t, ht⟩
  have e : ‖c - C‖ = ‖c' - C‖ := le_antisymm (m.2.2 _ m'.1 m'.2.1) (m'.2.2 _ m.1 m.2.1)
  have key : ‖leftCenter S E ((‖S - C‖ + ‖E - C‖) / 2) - C‖ = ‖rightCenter S E ((‖S - C‖ + ‖E - C‖) / 2) - C‖ →
      leftCenter S E ((‖S - C‖ + ‖E - C‖) / 2) = rightCenter S E ((‖S - C‖ + ‖E - C‖) / 2) := by
    generalize (‖S - C‖ + ‖E - C‖) / 2 = r
    intro he
    obtain ⟨d, e, hfr⟩ := frame_exists h C
    have hu := unit_norm h
    have hkn : 0 < ‖halfSpan S E‖ := norm_pos_iff.2 (half_ne h)
    have hn : (‖halfSpan S E‖ : ℂ) ≠ 0 := by exact_mod_cast hkn.ne'
    set H := ‖halfSpan S E‖ with hH
    set u := halfSpan S E / ((H : ℝ) : ℂ) with hud
    have huk : u * (H : ℂ) = halfSpan S E := by rw [hud, div_mul_cancel₀ _ hn]
    have nrm : ∀ x y : ℝ, ‖u * ((x : ℂ) + y * Complex.I)‖ ^ 2 = x ^ 2 + y ^ 2 := by
      intro x y; rw [norm_mul, hu, one_mul, norm_sq_mk]
    set f := √(r ^ 2 - H ^ 2) with hf
    have hL : leftCenter S E r - C = u * (((0 - d : ℝ) : ℂ) + (f - e : ℝ) * Complex.I) := by
      rw [← hfr (0, f)]
      unfold leftCenter toRight
      rw [← hH, ← hud, ← hf]
      push_cast
      ring
    have hR : rightCenter S E r - C = u * (((0 - d : ℝ) : ℂ) + (-f - e : ℝ) * Complex.I) := by
      rw [← hfr (0, -f)]
      unfold rightCenter toRight
      rw [← hH, ← hud, ← hf]
      push_cast
      ring
    have hsq : ‖leftCenter S E r - C‖ ^ 2 = ‖rightCenter S E r - C‖ ^ 2 := by rw [he]
    rw [hL, hR, nrm, nrm] at hsq
    have hfe : f * e = 0 := by nlinarith
    have he0 : e ≠ 0 := by
      intro h0
      apply hC (1 / 2 + d / (2 * H))
      have := hfr (d, 0)
      rw [h0] at this
      simp only [sub_self, Complex.ofReal_zero, zero_mul, add_zero, mul_zero] at this
      have h2 : E - S = 2 * (u * H) := by rw [huk]; unfold halfSpan; ring
      rw [h2]
      have h3 : C = S + u * H + u * d := by rw [huk]; linear_combination -this
      rw [h3]
      push_cast
      field_simp
      ring
    rcases mul_eq_zero.1 hfe with h0 | h0
    · rw [h0] at hL hR
      have : leftCenter S E r - C = rightCenter S E r - C := by rw [hL, hR, neg_zero]
      exact sub_left_injective this
    · exact absurd h0 he0
  rcases two_centers h m.1 m.2.1 with h1 | h1 <;> rcases two_centers h m'.1 m'.2.1 with h2 | h2 <;> rw [h1, h2] at e <;> rw [h1, h2]
  · exact key e
  · exact (key e.symm).symm

/-- **C121**: of an arc with I, J, K, in any plane, the radius used is the mean of the distances of both ends from the named centre,
and the centre used is the nearest to the named one that has this distance from both ends. -/
theorem C121_mean (p : Pl) (g : GCode) (s : V3) (q : Quat) (incr arcIncr : Bool) (e : ℝ) (a : Arc)
    (h : g.arcOf s p.normal q incr arcIncr e = .ok a) (hne : p.coord s ≠ p.coord (g.arcEnd s incr)) (hR : g.num? 'R' = none) :
    MeanCentre (p.coord s) (p.coord (g.arcEnd s incr)) (p.coord (g.arcCenter s arcIncr)) (p.coord a.pCenter) := by
  have F := arcOf_ok p g s q incr arcIncr e a h
  obtain ⟨-, -, d1, d2⟩ := C56_center p g s q incr arcIncr e a h hne
  have hr := F.radiusC hR
  refine ⟨d1.trans hr, d2.trans hr, fun z h1 h2 => ?_⟩
  rw [← hr] at h1 h2
  rcases F.centerC hR with ⟨k1, k2⟩ | ⟨k1, k2⟩ <;> rw [k1] <;> rcases two_centers hne h1 h2 with rfl | rfl
  · exact le_refl _
  · exact k2.le
  · exact k2
  · exact le_refl _

end Pygcode
