import Verif.Props.ArcAccept

/-!
# The lines follow the arc from one end to the other (C83)

C57 bounds the distance of the lines from the circle.  Here the lines are compared with the arc itself:
every point of the arc has a point of the lines near it, in the same order, and conversely.
-/

namespace Pygcode
open Pl Machine Props

/-! ## Specification -/

/-- The point reached after the fraction `f` of a clockwise turn by `A` of `S` about `c`. -/
noncomputable def turned (c S : ℂ) (A f : ℝ) : ℂ := c + Complex.exp (-((f * A : ℝ) * Complex.I)) * (S - c)

/-- `ls` can be run through alongside the curve `σ` (over the fractions from 0 to 1), never going back,
from the start of the first line to the end of the last one, the two points never being further apart
than `b`.  A place on `ls` is the number of a line and a fraction of that line. -/
def Alongside (p : Pl) (ls : List (V3 × V3)) (σ : ℝ → ℂ) (b : ℝ) : Prop :=
  ∃ pos : ℝ → ℕ × ℝ,
    (∀ f, 0 ≤ f → f ≤ 1 → ∃ l, ls[(pos f).1]? = some l ∧ 0 ≤ (pos f).2 ∧ (pos f).2 ≤ 1 ∧
      ‖p.coord (onSegment l (pos f).2) - σ f‖ ≤ b) ∧
    (∀ f f', 0 ≤ f → f ≤ f' → f' ≤ 1 →
      (pos f).1 < (pos f').1 ∨ (pos f).1 = (pos f').1 ∧ (pos f).2 ≤ (pos f').2) ∧
    pos 0 = (0, 0) ∧ pos 1 = (ls.length - 1, 1)

/-- Each point of each line is near a point of the curve. -/
def NearCurve (p : Pl) (ls : List (V3 × V3)) (σ : ℝ → ℂ) (b : ℝ) : Prop :=
  ∀ l ∈ ls, ∀ t, 0 ≤ t → t ≤ 1 → ∃ f, 0 ≤ f ∧ f ≤ 1 ∧ ‖p.coord (onSegment l t) - σ f‖ ≤ b

/-- The distance each method allows. -/
noncomputable def allowed (m : ArcMethod) (e : ℝ) : ℝ :=
  match m with
  | .inside => e
  | .outside => e
  | .mid => e / 2

/-! ## Two corners -/

theorem cw_eq (θ : ℝ) : cw θ = ⟨Real.cos θ, -Real.sin θ⟩ := by
  unfold cw
  rw [show -((θ : ℂ) * Complex.I) = ((-θ : ℝ) : ℂ) * Complex.I by push_cast; ring]
  apply Complex.ext
  · rw [Complex.exp_ofReal_mul_I_re, Real.cos_neg]
  · rw [Complex.exp_ofReal_mul_I_im, Real.sin_neg]

/-- A direction between two others, as a combination of them. -/
theorem between_dirs (a b c : ℝ) :
    ((Real.sin (c - b) : ℝ) : ℂ) * cw a + ((Real.sin (b - a) : ℝ) : ℂ) * cw c = ((Real.sin (c - a) : ℝ) : ℂ) * cw b := by
  rw [cw_eq, cw_eq, cw_eq, Real.sin_sub, Real.sin_sub, Real.sin_sub]
  generalize Real.sin a = sa, Real.sin b = sb, Real.sin c = sc, Real.cos a = ca, Real.cos b = cb, Real.cos c = cc
  apply Complex.ext <;> simp only [Complex.add_re, Complex.add_im, Complex.re_ofReal_mul, Complex.im_ofReal_mul] <;> ring

/-- How far along the line from radius `r1` to radius `r2` the direction lies which is `x` after the first
corner and `y` before the second. -/
noncomputable def place (r1 r2 x y : ℝ) : ℝ :=
  if y = 0 then 1 else r1 * Real.sin x / (r2 * Real.sin y + r1 * Real.sin x)

theorem place_range {r1 r2 x y : ℝ} (h1 : 0 < r1) (h2 : 0 < r2) (hx : 0 ≤ x) (hy : 0 ≤ y) (hxy : x + y ≤ Real.pi) :
    0 ≤ place r1 r2 x y ∧ place r1 r2 x y ≤ 1 := by
  unfold place
  have hsx : 0 ≤ r1 * Real.sin x := mul_nonneg h1.le (Real.sin_nonneg_of_nonneg_of_le_pi hx (by linarith))
  have hsy : 0 ≤ r2 * Real.sin y := mul_nonneg h2.le (Real.sin_nonneg_of_nonneg_of_le_pi hy (by linarith))
  split_ifs
  · exact ⟨zero_le_one, le_refl _⟩
  · exact ⟨div_nonneg hsx (by linarith), div_le_one_of_le₀ (by linarith) (by linarith)⟩

theorem place_zero {r1 r2 y : ℝ} (hy : y ≠ 0) : place r1 r2 0 y = 0 := by
  unfold place
  rw [if_neg hy, Real.sin_zero, mul_zero, zero_div]

theorem place_mono {r1 r2 x y x' y' : ℝ} (h1 : 0 < r1) (h2 : 0 < r2) (hx : 0 ≤ x) (hy : 0 ≤ y') (hxx : x ≤ x')
    (hs : x + y = x' + y') (hxy : x + y ≤ Real.pi) : place r1 r2 x y ≤ place r1 r2 x' y' := by
  by_cases hy0 : y' = 0
  · rw [hy0, show place r1 r2 x' 0 = 1 from if_pos rfl]
    exact (place_range h1 h2 hx (by linarith) hxy).2
  have hy' : 0 < y' := lt_of_le_of_ne hy (Ne.symm hy0)
  rcases hx.eq_or_lt with h0 | h0
  · rw [← h0, place_zero (by linarith)]
    exact (place_range h1 h2 (by linarith) hy (by linarith)).1
  unfold place
  rw [if_neg hy0, if_neg (by linarith : y ≠ 0)]
  have s1 : 0 < r1 * Real.sin x := mul_pos h1 (Real.sin_pos_of_pos_of_lt_pi h0 (by linarith))
  have s2 : 0 < r1 * Real.sin x' := mul_pos h1 (Real.sin_pos_of_pos_of_lt_pi (by linarith) (by linarith))
  have s3 : 0 < r2 * Real.sin y := mul_pos h2 (Real.sin_pos_of_pos_of_lt_pi (by linarith) (by linarith))
  have s4 : 0 < r2 * Real.sin y' := mul_pos h2 (Real.sin_pos_of_pos_of_lt_pi hy' (by linarith))
  rw [div_le_div_iff₀ (by linarith) (by linarith)]
  have key : Real.sin x' * Real.sin y - Real.sin x * Real.sin y' = Real.sin (x' - x) * Real.sin (x + y) := by
    obtain rfl : y' = x + y - x' := by linarith
    have : Real.sin y = Real.sin ((x + y) - x) := by congr 1; ring
    rw [this, Real.sin_sub (x + y) x, Real.sin_sub (x + y) x', Real.sin_sub x' x]
    ring
  have hnn : 0 ≤ Real.sin (x' - x) * Real.sin (x + y) :=
    mul_nonneg (Real.sin_nonneg_of_nonneg_of_le_pi (by linarith) (by linarith))
      (Real.sin_nonneg_of_nonneg_of_le_pi (by linarith) hxy)
  have h3 := mul_nonneg (mul_pos h1 h2).le hnn
  rw [← key] at h3
  linarith

/-- At that place the line has that direction. -/
theorem place_point {r1 r2 a b c : ℝ} (h1 : 0 < r1) (h2 : 0 < r2)
    (hord : (a ≤ b ∧ b ≤ c) ∨ (c ≤ b ∧ b ≤ a)) (hpi : |c - a| ≤ Real.pi) :
    ∃ k : ℝ, 0 ≤ k ∧ (r1 : ℂ) * cw a + (place r1 r2 |b - a| |c - b| : ℝ) * (r2 * cw c - r1 * cw a) = k * cw b := by
  by_cases hbc : c = b
  · subst hbc
    refine ⟨r2, h2.le, ?_⟩
    rw [sub_self, abs_zero, show place r1 r2 |c - a| 0 = 1 from if_pos rfl]
    push_cast; ring
  by_cases hab : b = a
  · subst hab
    refine ⟨r1, h1.le, ?_⟩
    rw [sub_self, abs_zero, place_zero (by simpa [sub_eq_zero] using hbc)]
    push_cast; ring
  have hsum : |b - a| + |c - b| = |c - a| := by
    rcases hord with ⟨h3, h4⟩ | ⟨h3, h4⟩
    · rw [abs_of_nonneg (by linarith), abs_of_nonneg (by linarith), abs_of_nonneg (by linarith)]; ring
    · rw [abs_of_nonpos (by linarith), abs_of_nonpos (by linarith), abs_of_nonpos (by linarith)]; ring
  have px : 0 < |b - a| := abs_pos.2 (sub_ne_zero.2 hab)
  have py : 0 < |c - b| := abs_pos.2 (sub_ne_zero.2 hbc)
  have s1 : 0 < Real.sin |b - a| := Real.sin_pos_of_pos_of_lt_pi px (by linarith)
  have s2 : 0 < Real.sin |c - b| := Real.sin_pos_of_pos_of_lt_pi py (by linarith)
  have s3 : 0 ≤ Real.sin |c - a| := Real.sin_nonneg_of_nonneg_of_le_pi (abs_nonneg _) hpi
  have hid : ((Real.sin |c - b| : ℝ) : ℂ) * cw a + ((Real.sin |b - a| : ℝ) : ℂ) * cw c =
      ((Real.sin |c - a| : ℝ) : ℂ) * cw b := by
    have h0 := between_dirs a b c
    rcases hord with ⟨h3, h4⟩ | ⟨h3, h4⟩
    · rw [abs_of_nonneg (by linarith), abs_of_nonneg (by linarith), abs_of_nonneg (by linarith)]; exact h0
    · rw [abs_of_nonpos (by linarith), abs_of_nonpos (by linarith), abs_of_nonpos (by linarith), Real.sin_neg,
        Real.sin_neg, Real.sin_neg]
      push_cast at h0 ⊢
      linear_combination -h0
  have hD : 0 < r2 * Real.sin |c - b| + r1 * Real.sin |b - a| := by positivity
  refine ⟨r1 * r2 * Real.sin |c - a| / (r2 * Real.sin |c - b| + r1 * Real.sin |b - a|), by positivity, ?_⟩
  unfold place
  rw [if_neg py.ne']
  have hDC : ((r2 * Real.sin |c - b| + r1 * Real.sin |b - a| : ℝ) : ℂ) ≠ 0 := by exact_mod_cast hD.ne'
  push_cast at hDC hid ⊢
  field_simp
  linear_combination (r1 * r2 : ℂ) * hid

theorem cone_dir {p q γ : ℝ} (hp : 0 ≤ p) (hq : 0 ≤ q) (h0 : 0 ≤ γ) (hpi : γ ≤ Real.pi) :
    ∃ α k : ℝ, 0 ≤ α ∧ α ≤ γ ∧ 0 ≤ k ∧ p + q * Real.cos γ = k * Real.cos α ∧ q * Real.sin γ = k * Real.sin α := by
  set z : ℂ := ⟨p + q * Real.cos γ, q * Real.sin γ⟩ with hz
  by_cases hz0 : z = 0
  · have h1 := congrArg Complex.re hz0
    have h2 := congrArg Complex.im hz0
    simp only [hz, Complex.zero_re, Complex.zero_im] at h1 h2
    exact ⟨0, 0, le_refl _, h0, le_refl _, by rw [h1]; ring, by rw [h2]; ring⟩
  have hn : 0 < ‖z‖ := norm_pos_iff.2 hz0
  have hre : p + q * Real.cos γ = ‖z‖ * Real.cos (Complex.arg z) := (Complex.norm_mul_cos_arg z).symm
  have him : q * Real.sin γ = ‖z‖ * Real.sin (Complex.arg z) := (Complex.norm_mul_sin_arg z).symm
  have hs : 0 ≤ Real.sin γ := Real.sin_nonneg_of_nonneg_of_le_pi h0 hpi
  have ha0 : 0 ≤ Complex.arg z := Complex.arg_nonneg_iff.2 (mul_nonneg hq hs)
  refine ⟨Complex.arg z, ‖z‖, ha0, ?_, hn.le, hre, him⟩
  by_contra hlt
  push Not at hlt
  have h3 : ‖z‖ * Real.sin (γ - Complex.arg z) = p * Real.sin γ := by
    rw [Real.sin_sub]
    linear_combination (-Real.sin γ) * hre + Real.cos γ * him
  have hle := Complex.arg_le_pi z
  rcases (show -Real.pi ≤ γ - Complex.arg z by linarith).eq_or_lt with h4 | h4
  · obtain rfl : γ = 0 := by linarith
    have h5 : Complex.arg z = Real.pi := by linarith
    rw [Complex.arg_eq_pi_iff] at h5
    have h6 := h5.1
    simp only [hz, Real.cos_zero, mul_one] at h6
    linarith
  · have h5 := Real.sin_neg_of_neg_of_neg_pi_lt (x := γ - Complex.arg z) (by linarith) h4
    have h6 := mul_neg_of_pos_of_neg hn h5
    have h7 := mul_nonneg hp hs
    linarith

/-- Every point of the line between two corners at most half a turn apart has a direction in between. -/
theorem cone_point {r1 r2 a c t : ℝ} (h1 : 0 < r1) (h2 : 0 < r2) (hpi : |c - a| ≤ Real.pi) (ht0 : 0 ≤ t) (ht1 : t ≤ 1) :
    ∃ b k : ℝ, ((a ≤ b ∧ b ≤ c) ∨ (c ≤ b ∧ b ≤ a)) ∧ 0 ≤ k ∧
      (r1 : ℂ) * cw a + t * (r2 * cw c - r1 * cw a) = k * cw b := by
  obtain ⟨α, k, hα0, hα1, hk, hre, him⟩ := cone_dir (p := (1 - t) * r1) (q := t * r2) (γ := |c - a|)
    (mul_nonneg (by linarith) h1.le) (mul_nonneg ht0 h2.le) (abs_nonneg _) hpi
  rcases le_total a c with hac | hac
  · rw [abs_of_nonneg (by linarith)] at hα1 hre him
    refine ⟨a + α, k, .inl ⟨by linarith, by linarith⟩, hk, ?_⟩
    have h3 : (((1 - t) * r1 : ℝ) : ℂ) + ((t * r2 : ℝ) : ℂ) * cw (c - a) = k * cw α := by
      rw [cw_eq, cw_eq]
      apply Complex.ext <;>
        simp only [Complex.add_re, Complex.add_im, Complex.re_ofReal_mul, Complex.im_ofReal_mul, Complex.ofReal_re,
          Complex.ofReal_im] <;> linarith
    have h4 : cw c = cw a * cw (c - a) := by rw [← cw_add]; congr 1; ring
    rw [cw_add, h4]
    push_cast at h3
    linear_combination cw a * h3
  · rw [abs_of_nonpos (by linarith)] at hα1 hre him
    refine ⟨a - α, k, .inr ⟨by linarith, by linarith⟩, hk, ?_⟩
    have h3 : (((1 - t) * r1 : ℝ) : ℂ) + ((t * r2 : ℝ) : ℂ) * cw (c - a) = k * cw (-α) := by
      rw [cw_eq, cw_eq, Real.cos_neg, Real.sin_neg]
      rw [Real.cos_neg] at hre
      rw [Real.sin_neg] at him
      apply Complex.ext <;>
        simp only [Complex.add_re, Complex.add_im, Complex.re_ofReal_mul, Complex.im_ofReal_mul, Complex.ofReal_re,
          Complex.ofReal_im] <;> linarith
    have h4 : cw c = cw a * cw (c - a) := by rw [← cw_add]; congr 1; ring
    rw [show a - α = a + -α by ring, cw_add, h4]
    push_cast at h3
    linear_combination cw a * h3

/-! ## The corners of the lines -/

/-- Fraction of the sweep at the `i`-th corner, the start being the first. -/
noncomputable def cornerFraction (m : ArcMethod) (n i : ℕ) : ℝ :=
  if i = 0 then 0 else if i ≤ inner m n then fraction m n (i - 1) else 1

theorem corner_fraction (a : Arc) (m : ArcMethod) {n : ℕ} {w : ℝ} (R : ℝ) (hw : Wedges a m n w) (i : ℕ) :
    (corner a m n w R i).2 = cornerFraction m n i * a.angle := by
  unfold corner cornerFraction
  split_ifs
  · simp
  · exact curAngle_fraction m a hw _
  · simp

/-- Neighbouring corners are a wedge or half a wedge apart. -/
theorem corner_gap (a : Arc) (m : ArcMethod) {n : ℕ} {w : ℝ} (hw : Wedges a m n w) (i : ℕ) (hi : i ≤ inner m n) :
    cornerFraction m n i < cornerFraction m n (i + 1) ∧
      ∃ d : ℝ, 0 ≤ d ∧ d ≤ 1 ∧ cornerFraction m n (i + 1) * a.angle - cornerFraction m n i * a.angle = d * w := by
  have hn := hw.pos
  have hnR : (0 : ℝ) < n := by exact_mod_cast hn
  have htot := hw.total
  rw [← htot]
  unfold cornerFraction
  rw [if_neg (Nat.succ_ne_zero i), Nat.add_sub_cancel]
  cases hph : Arc.phase m with
  | true =>
    have hin : inner m n = n := by unfold inner; rw [hph]; rfl
    have hfr : ∀ j : ℕ, fraction m n j = (2 * j + 1) / (2 * n) := by
      intro j; cases m <;> first | rfl | cases hph
    rw [hin] at hi ⊢
    simp only [hfr]
    by_cases h0 : i = 0
    · subst h0
      rw [if_pos rfl, if_pos (by omega)]
      refine ⟨by positivity, 1 / 2, by norm_num, by norm_num, ?_⟩
      field_simp; push_cast; ring
    · rw [if_neg h0, if_pos hi]
      have hc : ((i - 1 : ℕ) : ℝ) = i - 1 := by rw [Nat.cast_sub (by omega)]; simp
      by_cases hi1 : i + 1 ≤ n
      · rw [if_pos hi1, hc]
        refine ⟨div_lt_div_of_pos_right (by linarith) (by positivity), 1, by norm_num, by norm_num, ?_⟩
        field_simp; ring
      · rw [if_neg hi1, hc]
        obtain rfl : i = n := by omega
        refine ⟨by rw [div_lt_one (by positivity)]; linarith, 1 / 2, by norm_num, by norm_num, ?_⟩
        field_simp; ring
  | false =>
    have hin : inner m n = n - 1 := by unfold inner; rw [hph]; rfl
    have hfr : ∀ j : ℕ, fraction m n j = (j + 1) / n := by
      intro j; cases m <;> first | rfl | cases hph
    rw [hin] at hi ⊢
    simp only [hfr]
    have h3 : (if i = 0 then (0 : ℝ) else if i ≤ n - 1 then (((i - 1 : ℕ) : ℝ) + 1) / n else 1) = i / n := by
      by_cases h0 : i = 0
      · subst h0; simp
      · rw [if_neg h0, if_pos hi, Nat.cast_sub (by omega)]; simp
    have h4 : (if i + 1 ≤ n - 1 then ((i : ℝ) + 1) / n else 1) = (i + 1) / n := by
      by_cases hi1 : i + 1 ≤ n - 1
      · rw [if_pos hi1]
      · rw [if_neg hi1]
        have : n = i + 1 := by omega
        rw [this]; push_cast
        rw [div_self]
        positivity
    rw [h3, h4]
    refine ⟨div_lt_div_of_pos_right (by linarith) hnR, 1, by norm_num, by norm_num, ?_⟩
    field_simp; ring

/-- Lines between corners at increasing fractions of a turn by `A`. -/
structure Corners (p : Pl) (ls : List (V3 × V3)) (c u : ℂ) (A : ℝ) (F ρ : ℕ → ℝ) : Prop where
  some : 0 < ls.length
  first : F 0 = 0
  last : F ls.length = 1
  lt : ∀ i, i < ls.length → F i < F (i + 1)
  gap : ∀ i, i < ls.length → |F (i + 1) * A - F i * A| ≤ Real.pi
  pos : ∀ i, 0 < ρ i
  line : ∀ i, i < ls.length → ∃ l, ls[i]? = Option.some l ∧ p.coord l.1 - c = ρ i * cw (F i * A) * u ∧
    p.coord l.2 - c = ρ (i + 1) * cw (F (i + 1) * A) * u

theorem corners_ok (p : Pl) (g : GCode) (s : V3) (q : Quat) (incr arcIncr : Bool) (e : ℝ) (a : Arc)
    (h : g.arcOf s p.normal q incr arcIncr e = .ok a) (hne : p.coord s ≠ p.coord (g.arcEnd s incr)) (he : 0 < e)
    (hsw : Sweeps p a) (m : ArcMethod) :
    ∃ ls u F ρ, a.iterVertices m = .ok ls ∧ 0 < a.radius ∧ ‖u‖ = 1 ∧
      p.coord s - p.coord a.pCenter = a.radius * u ∧ Corners p ls (p.coord a.pCenter) u a.angle F ρ := by
  have Fa := arcOf_ok p g s q incr arcIncr e a h
  obtain ⟨hr, hhC, hd1, hd2⟩ := C56_center p g s q incr arcIncr e a h hne
  have hang := angle_ne p a hsw (by rw [Fa.cStart, Fa.cEnd]; exact hne)
  have he' : 0 < a.maxError := by rw [Fa.maxError]; exact he
  obtain ⟨n, w, W⟩ := wedges a m he' hr hang
  obtain ⟨R, hR, hRr, hRhi, hRlo, hRin⟩ := outer_ok a m he' hr W
  have hrC : (a.radius : ℂ) ≠ 0 := by exact_mod_cast hr.ne'
  set u : ℂ := (p.coord a.pStart - p.coord a.pCenter) / a.radius with hu
  have hu' : p.coord a.pStart - p.coord a.pCenter = a.radius * u := by rw [hu]; field_simp
  have hu1 : ‖u‖ = 1 := by
    rw [hu, norm_div, Fa.cStart, hd1, Complex.norm_real, Real.norm_of_nonneg hr.le, div_self hr.ne']
  have hcp := fun i x hx => corner_point p a m (n := n) (w := w) (R := R) u Fa.normal Fa.hpStart Fa.hpCenter
    (by rw [Fa.hStart]; simp) (by rw [Fa.hEnd]; simp) hr hu' hu1 hsw i x hx
  refine ⟨_, u, cornerFraction m n, fun i => (corner a m n w R i).1, iterVertices_ok a m W hR, hr, hu1,
    by rw [← Fa.cStart]; exact hu', ?_⟩
  rw [lines_zip]
  set es := (List.range (inner m n)).map (a.vertex m w ((a.pStart - a.pCenter).normalized.mul R)) ++ [a.pEnd + a.hEnd]
    with hes
  set s0 := a.pCenter + (a.pStart - a.pCenter) + a.hStart with hs0
  have hlen : ((s0 :: es).zip es).length = inner m n + 1 := by
    rw [List.length_zip, hes]; simp
  have hle : es.length = inner m n + 1 := by rw [hes]; simp
  have hsm := W.small _ (maxWedge_ok a m he' hr)
  constructor
  · omega
  · rfl
  · rw [hlen]; unfold cornerFraction; rw [if_neg (by omega), if_neg (by omega)]
  · intro i hi
    exact (corner_gap a m W i (by omega)).1
  · intro i hi
    obtain ⟨-, d, hd0, hd1, hd⟩ := corner_gap a m W i (by omega)
    rw [hd, abs_mul, abs_of_nonneg hd0]
    nlinarith [abs_nonneg w, hsm.1, hsm.2]
  · intro i
    unfold corner
    split_ifs
    · exact hr
    · exact hr.trans_le hRr
    · exact hr
  · intro i hi
    have h1 : i < (s0 :: es).length := by simp; omega
    have h2 : i < es.length := by omega
    refine ⟨((s0 :: es)[i], es[i]), ?_, ?_, ?_⟩
    · rw [List.getElem?_eq_getElem hi, List.getElem_zip]
    · rw [← corner_fraction a m R W]
      exact (hcp i _ (List.getElem?_eq_getElem h1)).1
    · rw [← corner_fraction a m R W]
      refine (hcp (i + 1) _ ?_).1
      rw [List.getElem?_cons_succ]
      exact List.getElem?_eq_getElem h2

theorem Corners.mono {p ls c u A F ρ} (C : Corners p ls c u A F ρ) {i j : ℕ} (hij : i < j) (hj : j ≤ ls.length) :
    F i < F j := by
  induction j with
  | zero => omega
  | succ j ih =>
    have h1 := C.lt j (by omega)
    rcases Nat.lt_succ_iff_lt_or_eq.1 hij with h | h
    · exact (ih h (by omega)).trans h1
    · rw [h]; exact h1

open Classical in
/-- Where to be on the lines at the fraction `f`. -/
noncomputable def placeOf (A : ℝ) (F ρ : ℕ → ℝ) (f : ℝ) : ℕ × ℝ :=
  if h : ∃ i, f ≤ F (i + 1) then
    (Nat.find h, place (ρ (Nat.find h)) (ρ (Nat.find h + 1)) |f * A - F (Nat.find h) * A| |F (Nat.find h + 1) * A - f * A|)
  else (0, 0)

theorem placeOf_ok {p ls c u A F ρ} (C : Corners p ls c u A F ρ) {f : ℝ} (h0 : 0 ≤ f) (h1 : f ≤ 1) :
    ∃ i, i < ls.length ∧ F i ≤ f ∧ f ≤ F (i + 1) ∧ (∀ j, j < i → F (j + 1) < f) ∧
      placeOf A F ρ f = (i, place (ρ i) (ρ (i + 1)) |f * A - F i * A| |F (i + 1) * A - f * A|) := by
  classical
  have hN := C.some
  have hex : ∃ i, f ≤ F (i + 1) := ⟨ls.length - 1, by rw [Nat.sub_add_cancel hN, C.last]; exact h1⟩
  refine ⟨Nat.find hex, ?_, ?_, Nat.find_spec hex, ?_, ?_⟩
  · have := Nat.find_min' hex (m := ls.length - 1) (by rw [Nat.sub_add_cancel hN, C.last]; exact h1)
    omega
  · by_cases h : Nat.find hex = 0
    · rw [h, C.first]; exact h0
    · have := Nat.find_min hex (m := Nat.find hex - 1) (by omega)
      rw [Nat.sub_add_cancel (by omega)] at this
      exact (not_le.1 this).le
  · intro j hj
    exact not_le.1 (Nat.find_min hex hj)
  · unfold placeOf
    rw [dif_pos hex]

theorem ordered_turn {x y z : ℝ} (A : ℝ) (h1 : x ≤ y) (h2 : y ≤ z) :
    (x * A ≤ y * A ∧ y * A ≤ z * A) ∨ (z * A ≤ y * A ∧ y * A ≤ x * A) := by
  rcases le_total 0 A with h | h
  · exact .inl ⟨mul_le_mul_of_nonneg_right h1 h, mul_le_mul_of_nonneg_right h2 h⟩
  · exact .inr ⟨mul_le_mul_of_nonpos_right h2 h, mul_le_mul_of_nonpos_right h1 h⟩

theorem abs_turn {x y : ℝ} (A : ℝ) (h1 : x ≤ y) : |y * A - x * A| = (y - x) * |A| := by
  rw [← sub_mul, abs_mul, abs_of_nonneg (by linarith)]

/-- A point in the direction of a point of the circle is as far from it as from the circle. -/
theorem apart {c u x : ℂ} {r k θ b : ℝ} (hu : ‖u‖ = 1) (hk : 0 ≤ k) (hx : x - c = k * cw θ * u)
    (hb : r - b ≤ ‖x - c‖ ∧ ‖x - c‖ ≤ r + b) : ‖x - (c + cw θ * (r * u))‖ ≤ b := by
  have h1 : ‖x - c‖ = k := by
    rw [hx, norm_mul, norm_mul, norm_cw, hu, mul_one, mul_one, Complex.norm_real, Real.norm_of_nonneg hk]
  rw [show x - (c + cw θ * (r * u)) = ((k - r : ℝ) : ℂ) * cw θ * u by
    rw [show x - (c + cw θ * (r * u)) = (x - c) - cw θ * (r * u) by ring, hx]; push_cast; ring,
    norm_mul, norm_mul, norm_cw, hu, mul_one, mul_one, Complex.norm_real, Real.norm_eq_abs, abs_le]
  rw [h1] at hb
  constructor <;> linarith [hb.1, hb.2]

theorem coord_onSegment (p : Pl) (l : V3 × V3) (c : ℂ) (t : ℝ) : p.coord (onSegment l t) - c =
    (p.coord l.1 - c) + t * ((p.coord l.2 - c) - (p.coord l.1 - c)) := by
  unfold onSegment
  rw [coord_add, coord_mul, coord_sub]; ring

theorem alongside_of {p ls c u A F ρ} (C : Corners p ls c u A F ρ) (hA : A ≠ 0) {S : ℂ} {r b : ℝ} (hu : ‖u‖ = 1)
    (hS : S - c = r * u)
    (hb : ∀ l ∈ ls, ∀ t, 0 ≤ t → t ≤ 1 → r - b ≤ ‖p.coord (onSegment l t) - c‖ ∧ ‖p.coord (onSegment l t) - c‖ ≤ r + b) :
    Alongside p ls (turned c S A) b := by
  have hA' : 0 < |A| := abs_pos.2 hA
  refine ⟨placeOf A F ρ, ?_, ?_, ?_, ?_⟩
  · intro f h0 h1
    obtain ⟨i, hi, hl, hh, -, hp⟩ := placeOf_ok C h0 h1
    obtain ⟨l, hls, c1, c2⟩ := C.line i hi
    have hgap := C.gap i hi
    rw [hp]
    have hr := place_range (C.pos i) (C.pos (i + 1)) (abs_nonneg (f * A - F i * A)) (abs_nonneg (F (i + 1) * A - f * A))
      (by rw [abs_turn A hl, abs_turn A hh]; rw [abs_turn A (hl.trans hh)] at hgap; linarith)
    refine ⟨l, hls, hr.1, hr.2, ?_⟩
    obtain ⟨k, hk, hpt⟩ := place_point (C.pos i) (C.pos (i + 1)) (ordered_turn A hl hh) hgap
    unfold turned
    rw [hS]
    refine apart hu hk ?_ (hb l (List.mem_of_getElem? hls) _ hr.1 hr.2)
    rw [coord_onSegment, c1, c2, ← hpt]
    ring
  · intro f f' h0 hff h1
    obtain ⟨i, hi, hl, hh, hm, hp⟩ := placeOf_ok C h0 (hff.trans h1)
    obtain ⟨j, hj, hl', hh', hm', hp'⟩ := placeOf_ok C (h0.trans hff) h1
    rw [hp, hp']
    rcases lt_trichotomy i j with hij | hij | hij
    · exact .inl hij
    · subst hij
      refine .inr ⟨rfl, ?_⟩
      have hgap := C.gap i hi
      rw [abs_turn A (hl.trans hh)] at hgap
      simp only
      rw [abs_turn A hl, abs_turn A hh, abs_turn A hl', abs_turn A hh']
      refine place_mono (C.pos i) (C.pos (i + 1)) (mul_nonneg (by linarith) hA'.le) (mul_nonneg (by linarith) hA'.le)
        (mul_le_mul_of_nonneg_right (by linarith) hA'.le) (by ring) (by linarith)
    · exact absurd (hm j hij) (by linarith)
  · obtain ⟨i, hi, hl, hh, hm, hp⟩ := placeOf_ok C (le_refl (0 : ℝ)) zero_le_one
    have h0 : i = 0 := by
      by_contra h
      have := hm 0 (by omega)
      have h2 := C.mono (i := 0) (j := 1) (by omega) (by omega)
      rw [C.first] at h2
      linarith
    subst h0
    have hlt := C.lt 0 hi
    rw [hp, C.first, sub_self, abs_zero, place_zero]
    rw [C.first] at hlt
    rw [zero_mul, sub_zero, abs_mul, abs_of_pos hlt]
    positivity
  · obtain ⟨i, hi, hl, hh, hm, hp⟩ := placeOf_ok C (zero_le_one' ℝ) (le_refl (1 : ℝ))
    have h0 : i + 1 = ls.length := by
      by_contra h
      have h2 := C.mono (i := i + 1) (j := ls.length) (by omega) (le_refl _)
      rw [C.last] at h2
      linarith
    rw [hp, h0, C.last, sub_self, abs_zero, show i = ls.length - 1 by omega]
    exact Prod.ext rfl (if_pos rfl)

theorem nearCurve_of {p ls c u A F ρ} (C : Corners p ls c u A F ρ) (hA : A ≠ 0) {S : ℂ} {r b : ℝ} (hu : ‖u‖ = 1)
    (hS : S - c = r * u)
    (hb : ∀ l ∈ ls, ∀ t, 0 ≤ t → t ≤ 1 → r - b ≤ ‖p.coord (onSegment l t) - c‖ ∧ ‖p.coord (onSegment l t) - c‖ ≤ r + b) :
    NearCurve p ls (turned c S A) b := by
  intro l hl t h0 h1
  obtain ⟨i, hi, rfl⟩ := List.mem_iff_getElem.1 hl
  obtain ⟨l', hls, c1, c2⟩ := C.line i hi
  rw [List.getElem?_eq_getElem hi, Option.some.injEq] at hls
  subst hls
  obtain ⟨β, k, hβ, hk, hpt⟩ := cone_point (C.pos i) (C.pos (i + 1)) (C.gap i hi) h0 h1
  have hlt := C.lt i hi
  have hF0 : 0 ≤ F i := by
    by_cases h : i = 0
    · rw [h, C.first]
    · rw [← C.first]; exact (C.mono (by omega) hi.le).le
  have hF1 : F (i + 1) ≤ 1 := by
    by_cases h : i + 1 = ls.length
    · rw [h, C.last]
    · rw [← C.last]; exact (C.mono (by omega) (le_refl _)).le
  have hf : F i ≤ β / A ∧ β / A ≤ F (i + 1) := by
    rcases lt_or_gt_of_ne hA with hn | hn
    · rw [le_div_iff_of_neg hn, div_le_iff_of_neg hn]
      rcases hβ with ⟨h3, h4⟩ | ⟨h3, h4⟩
      · have := mul_lt_mul_of_neg_right hlt hn
        linarith
      · exact ⟨h4, h3⟩
    · rw [le_div_iff₀ hn, div_le_iff₀ hn]
      rcases hβ with ⟨h3, h4⟩ | ⟨h3, h4⟩
      · exact ⟨h3, h4⟩
      · have := mul_lt_mul_of_pos_right hlt hn
        linarith
  refine ⟨β / A, hF0.trans hf.1, hf.2.trans hF1, ?_⟩
  unfold turned
  rw [hS, div_mul_cancel₀ _ hA]
  refine apart hu hk ?_ (hb _ hl t h0 h1)
  rw [coord_onSegment, c1, c2, ← hpt]
  ring

/-! ## C83 -/

theorem turned_zero (c S : ℂ) (A : ℝ) : turned c S A 0 = S := by
  unfold turned; simp

/-- If turning the start about the computed centre by the computed angle gives the end (it does in the XY plane, C58),
the lines of an arc follow the turning point from start to end, and stay near its track. -/
theorem C83_follow (p : Pl) (g : GCode) (s : V3) (q : Quat) (incr arcIncr : Bool) (e : ℝ) (a : Arc)
    (h : g.arcOf s p.normal q incr arcIncr e = .ok a) (hne : p.coord s ≠ p.coord (g.arcEnd s incr)) (he : 0 < e)
    (hsw : turned (p.coord a.pCenter) (p.coord s) a.angle 1 = p.coord (g.arcEnd s incr)) (m : ArcMethod) :
    ∃ ls, a.iterVertices m = .ok ls ∧
      Alongside p ls (turned (p.coord a.pCenter) (p.coord s) a.angle) (allowed m e) ∧
      NearCurve p ls (turned (p.coord a.pCenter) (p.coord s) a.angle) (allowed m e) := by
  have F := arcOf_ok p g s q incr arcIncr e a h
  have hsw' : Sweeps p a := by
    unfold Sweeps
    rw [F.cStart, F.cEnd, ← hsw]
    unfold turned cw
    rw [one_mul, add_sub_cancel_left]
  have hang := angle_ne p a hsw' (by rw [F.cStart, F.cEnd]; exact hne)
  obtain ⟨ls, u, F, ρ, h1, hr, hu, hS, C⟩ := corners_ok p g s q incr arcIncr e a h hne he hsw' m
  obtain ⟨ls', h2, h3⟩ := C57_error p g s q incr arcIncr e a h hne he hsw' m
  obtain rfl : ls = ls' := by rw [h1] at h2; exact Except.ok.inj h2
  have hb : ∀ l ∈ ls, ∀ t, 0 ≤ t → t ≤ 1 → a.radius - allowed m e ≤ ‖p.coord (onSegment l t) - p.coord a.pCenter‖ ∧
      ‖p.coord (onSegment l t) - p.coord a.pCenter‖ ≤ a.radius + allowed m e := by
    intro l hl t ht0 ht1
    have h4 := h3 l hl t ht0 ht1
    cases m <;> simp only [allowed] at h4 ⊢ <;> exact ⟨by linarith [h4.1], by linarith [h4.2]⟩
  exact ⟨ls, h1, alongside_of C hang hu hS hb, nearCurve_of C hang hu hS hb⟩

/-- XY plane, absolute mode: start and end determine, with R or the centre and the direction, an arc; the yielded
path follows this arc within the error. -/
theorem C83_path_partial (g : GCode) (start : Position) (plane : Option Cls)
    (hpl : plane = none ∨ plane = some .selectXYPlane) (m : ArcMethod) (arcIncr : Bool) (e : ℝ) (d : ℤ) (vs : List V3)
    (s : V3) (hs : start.vector = s) (hne : xy.coord s ≠ xy.coord (g.arcEnd s false))
    (h : linearizeArc g start plane (some m) false arcIncr e d = (vs, .done)) :
    ∃ (c : ℂ) (A : ℝ), turned c (xy.coord s) A 0 = xy.coord s ∧ turned c (xy.coord s) A 1 = xy.coord (g.arcEnd s false) ∧
      (g.cls.isSub .arcMoveCW = true → 0 < A ∧ A < 2 * Real.pi) ∧
      (g.cls.isSub .arcMoveCW = false → -(2 * Real.pi) < A ∧ A < 0) ∧
      (∀ x, g.num? 'R' = some x → ‖xy.coord s - c‖ = |(x : ℝ)| ∧ (0 < x → |A| ≤ Real.pi) ∧ (x < 0 → Real.pi ≤ |A|)) ∧
      (g.num? 'R' = none → MeanCentre (xy.coord s) (xy.coord (g.arcEnd s false)) (xy.coord (g.arcCenter s arcIncr)) c) ∧
      Alongside xy (segments s vs) (turned c (xy.coord s) A) (allowed m e) ∧
      NearCurve xy (segments s vs) (turned c (xy.coord s) A) (allowed m e) := by
  obtain ⟨p, m', s', q, a, ls, D, rfl⟩ := linearize_done h
  obtain rfl : m = m' := Option.some.inj D.method
  obtain rfl : s = s' := by exact hs.symm.trans D.start
  have hp : p = xy := by
    have := D.plane
    rcases hpl with rfl | rfl <;> cases p <;> first | rfl | (exact absurd this (by decide))
  subst hp
  obtain rfl : Quat.one = q := Option.some.inj D.quat
  obtain ⟨h1, h2, h3, h4⟩ := C56_center xy g s _ false arcIncr e a D.ok hne
  obtain ⟨h5, h6, h7⟩ := C58_xy_partial g s false arcIncr e a D.ok
  have F := arcOf_ok xy g s _ false arcIncr e a D.ok
  have hang := angle_ne xy a (sweeps_xy g s false arcIncr e a D.ok) (by rw [F.cStart, F.cEnd]; exact hne)
  have hend : turned (xy.coord a.pCenter) (xy.coord s) a.angle 1 = xy.coord (g.arcEnd s false) := by
    unfold turned
    rw [one_mul, ← h5]; ring
  refine ⟨xy.coord a.pCenter, a.angle, turned_zero _ _ _, hend, ?_, ?_, ?_, ?_, ?_⟩
  · intro hc; exact ⟨lt_of_le_of_ne (h6 hc).1 (Ne.symm hang), (h6 hc).2⟩
  · intro hc; exact ⟨(h7 hc).1, lt_of_le_of_ne (h7 hc).2 hang⟩
  · intro x hx
    have h8 := C58_half_partial g s false arcIncr e a D.ok hne x hx
    exact ⟨by rw [h3, C56_radius xy g s _ false arcIncr e a D.ok x hx], h8.1, h8.2⟩
  · intro hR; exact C121_mean xy g s _ false arcIncr e a D.ok hne hR
  · obtain ⟨ls', h9, h10⟩ := C83_follow xy g s _ false arcIncr e a D.ok hne D.pos hend m
    obtain rfl : ls = ls' := by have := D.verts; rw [h9] at this; exact (Except.ok.inj this).symm
    obtain ⟨-, -, h11⟩ := done_shape D
    simp only [Bool.false_eq_true, if_false]
    rw [← h11]
    exact h10

/-- The quarter circle from (1, 0) to (0, 1), counter-clockwise about the origin: the path runs alongside
`exp (i f π/2)`, for `f` from 0 to 1, at a distance of at most 1/200. -/
example : ∃ vs, linearizeArc sampleArc (at3 1 0 0) none (some .mid) false true (1 / 100) 3 = (vs, .done) ∧
    Alongside xy (segments ⟨(1 : ℚ), (0 : ℚ), (0 : ℚ)⟩ vs)
      (fun f => Complex.exp ((f * (Real.pi / 2) : ℝ) * Complex.I)) (1 / 200) := by
  have hs := at3_vector 1 0 0
  have hE : sampleArc.arcEnd ⟨(1 : ℚ), (0 : ℚ), (0 : ℚ)⟩ false = ⟨0, 1, 0⟩ := by
    simp [GCode.arcEnd, sampleArc, GCode.num?, GCode.param, Word.num]
  have hne : xy.coord ⟨(1 : ℚ), (0 : ℚ), (0 : ℚ)⟩ ≠ xy.coord (sampleArc.arcEnd ⟨(1 : ℚ), (0 : ℚ), (0 : ℚ)⟩ false) := by
    rw [hE]; intro h; have := congrArg Complex.re h; simp [Pl.coord] at this
  have hC : xy.coord (sampleArc.arcCenter ⟨(1 : ℚ), (0 : ℚ), (0 : ℚ)⟩ true) = 0 := by
    apply Complex.ext <;>
      simp [GCode.arcCenter, sampleArc, GCode.num?, GCode.param, Word.num, Pl.coord, add_mk]
  have hS : xy.coord ⟨(1 : ℚ), (0 : ℚ), (0 : ℚ)⟩ = 1 := by
    apply Complex.ext <;> simp [Pl.coord]
  have hI : xy.coord ⟨0, 1, 0⟩ = Complex.I := rfl
  have hR : sampleArc.num? 'R' = none := by decide +kernel
  obtain ⟨vs, h⟩ := (C62_done sampleArc _ .mid false true (1 / 100) 3 _ hs hne).2
    ⟨by decide +kernel, by norm_num, by decide +kernel, fun r hr => by rw [hR] at hr; cases hr⟩
  refine ⟨vs, h, ?_⟩
  obtain ⟨c, A, -, h1, -, h2, -, h3, h4, -⟩ := C83_path_partial _ _ _ (.inr rfl) _ _ _ _ _ _ hs hne h
  have hc := (h3 hR).fits (by rw [hE, hC, hS, hI]; simp)
  rw [hC] at hc
  subst hc
  obtain ⟨hA0, hA1⟩ := h2 (by decide)
  rw [hS, hE, hI] at h1
  have hA : A = -(Real.pi / 2) := by
    have h5 : cw A = Complex.I := by
      rw [← h1]; unfold turned cw; simp
    rw [cw_eq] at h5
    have h6 := congrArg Complex.im h5
    simp only [Complex.I_im] at h6
    have h7 : Real.cos (A + Real.pi / 2) = 1 := by rw [Real.cos_add_pi_div_two]; exact h6
    have := (Real.cos_eq_one_iff_of_lt_of_lt (by linarith [Real.pi_pos]) (by linarith [Real.pi_pos])).1 h7
    linarith
  have hσ : turned 0 (xy.coord ⟨(1 : ℚ), (0 : ℚ), (0 : ℚ)⟩) A = fun f => Complex.exp ((f * (Real.pi / 2) : ℝ) * Complex.I) := by
    funext f
    unfold turned
    rw [hS, hA]
    simp
  rw [hσ] at h4
  have : allowed .mid (1 / 100) = 1 / 200 := by unfold allowed; norm_num
  rw [this] at h4
  exact h4

/-- In the YZ plane: the line replacing a quarter of a unit circle is not near any arc of that circle. -/
theorem C83_yz_refuted : ∃ vs, linearizeArc sampleArcYZ (at3 0 1 0) (some .selectYZPlane) (some .inside) false true (1 / 10) 3 =
      (vs, .done) ∧ ∀ A, ¬ NearCurve yz (segments ⟨0, 1, 0⟩ vs)
        (turned (yz.coord (sampleArcYZ.arcCenter ⟨0, 1, 0⟩ true)) (yz.coord ⟨0, 1, 0⟩) A) (1 / 10) := by
  obtain ⟨vs, h, hC, l, hl, hn⟩ := C57_yz_refuted
  refine ⟨vs, h, fun A hA => ?_⟩
  obtain ⟨f, -, -, hd⟩ := hA l hl (1 / 2) (by norm_num) (by norm_num)
  rw [hC, show yz.coord ⟨0, 1, 0⟩ = 1 from rfl] at hd
  have h1 : ‖turned 0 1 A f‖ = 1 := by
    have := norm_cw (f * A)
    unfold turned
    rw [zero_add, sub_zero, mul_one]
    exact this
  have h2 := norm_sub_norm_le (turned 0 1 A f) (yz.coord (onSegment l (1 / 2)))
  rw [norm_sub_rev, h1] at h2
  nlinarith

end Pygcode
