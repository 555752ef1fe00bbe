import Verif.Props.ArcLength
import Verif.Lemmas.ArcStep

/-!
# The lines of an arc keep step with it, in space (C113)

C83 compares tracks in the plane of the arc.  Here the lines and the arc are run through in time: each line takes
the part of the sweep it spans, at a constant speed, and the arc turns and climbs at a constant speed.
-/

namespace Pygcode
open Pl Machine Props

/-! ## Specification -/

/-- The lines, run through in time with a turn of `S` by `A` about `c` which climbs from `h0` to `h1` meanwhile, are always
at the same height as the turning point, and no further from it than `b`.  `F i` is the time at which the line `i` starts. -/
def InStep (p : Pl) (ls : List (V3 × V3)) (c S : ℂ) (A h0 h1 b : ℝ) (F : ℕ → ℝ) : Prop :=
  F 0 = 0 ∧ F ls.length = 1 ∧
    ∀ i l, ls[i]? = some l → F i < F (i + 1) ∧ ∀ t, 0 ≤ t → t ≤ 1 →
      p.height (onSegment l t) = h0 + (F i + t * (F (i + 1) - F i)) * (h1 - h0) ∧
      ‖p.coord (onSegment l t) - turned c S A (F i + t * (F (i + 1) - F i))‖ ≤ b

/-- When the lines start: inside takes equally long for all lines; the others half as long for the first and the last one. -/
noncomputable def lineTime (m : ArcMethod) (k i : ℕ) : ℝ :=
  match m with
  | .inside => i / k
  | _ => if i = 0 then 0 else if i = k then 1 else (2 * i - 1) / (2 * (k - 1))

/-! ## One line -/

theorem norm_half (r R t δ : ℝ) : ‖(r : ℂ) + t * (R * cw δ - r) - r * cw (t * δ)‖ ^ 2 =
    (r + t * (R * Real.cos |δ| - r) - r * Real.cos (t * |δ|)) ^ 2 +
      (t * (R * Real.sin |δ|) - r * Real.sin (t * |δ|)) ^ 2 := by
  rw [Complex.sq_norm, Complex.normSq_apply, cw_eq, cw_eq]
  simp only [Complex.sub_re, Complex.sub_im, Complex.add_re, Complex.add_im, Complex.re_ofReal_mul, Complex.im_ofReal_mul,
    Complex.ofReal_re, Complex.ofReal_im]
  rcases abs_cases δ with ⟨h, -⟩ | ⟨h, -⟩ <;> rw [h]
  · ring
  · rw [show t * -δ = -(t * δ) by ring, Real.cos_neg, Real.cos_neg, Real.sin_neg, Real.sin_neg]
    ring

/-- The other way round. -/
theorem norm_half' (r R t δ : ℝ) : ‖(R : ℂ) + t * (r * cw δ - R) - r * cw (t * δ)‖ =
    ‖(r : ℂ) + ((1 - t : ℝ) : ℂ) * (R * cw (-δ) - r) - r * cw ((1 - t) * -δ)‖ := by
  have h1 : cw δ * cw (-δ) = 1 := by rw [← cw_add]; simp [cw_zero]
  have h2 : cw δ * cw ((1 - t) * -δ) = cw (t * δ) := by rw [← cw_add]; congr 1; ring
  rw [show (R : ℂ) + t * (r * cw δ - R) - r * cw (t * δ) =
    cw δ * ((r : ℂ) + ((1 - t : ℝ) : ℂ) * (R * cw (-δ) - r) - r * cw ((1 - t) * -δ)) by
      rw [← h2]; push_cast
      linear_combination (-(1 - (t : ℂ)) * R) * h1, norm_mul, norm_cw, one_mul]

theorem norm_full (r R t δ : ℝ) : ‖(R : ℂ) + t * (R * cw δ - R) - r * cw (t * δ)‖ ^ 2 =
    (R * Real.cos (|δ| / 2) - r * Real.cos (|2 * t - 1| * (|δ| / 2))) ^ 2 +
      (|2 * t - 1| * (R * Real.sin (|δ| / 2)) - r * Real.sin (|2 * t - 1| * (|δ| / 2))) ^ 2 := by
  have h1 : cw (δ / 2) * cw (-(δ / 2)) = 1 := by rw [← cw_add]; simp [cw_zero]
  have h2 : cw (δ / 2) * cw (δ / 2) = cw δ := by rw [← cw_add]; congr 1; ring
  have h3 : cw (δ / 2) * cw ((2 * t - 1) * (δ / 2)) = cw (t * δ) := by rw [← cw_add]; congr 1; ring
  rw [show (R : ℂ) + t * (R * cw δ - R) - r * cw (t * δ) =
    cw (δ / 2) * (R * cw (-(δ / 2)) + t * (R * cw (δ / 2) - R * cw (-(δ / 2))) - r * cw ((2 * t - 1) * (δ / 2))) by
      rw [← h3, ← h2]
      linear_combination (-R + t * R : ℂ) * h1, norm_mul, norm_cw, one_mul, Complex.sq_norm, Complex.normSq_apply, cw_eq, cw_eq, cw_eq]
  simp only [Complex.sub_re, Complex.sub_im, Complex.add_re, Complex.add_im, Complex.re_ofReal_mul, Complex.im_ofReal_mul,
    Real.cos_neg, Real.sin_neg]
  have hc : ∀ x y : ℝ, Real.cos (|x| * (|y| / 2)) = Real.cos (x * (y / 2)) := by
    intro x y
    rw [← Real.cos_abs (x * (y / 2)), abs_mul, abs_div, abs_two]
  have hc1 : Real.cos (|δ| / 2) = Real.cos (δ / 2) := by
    rw [← Real.cos_abs (δ / 2), abs_div, abs_two]
  rw [hc, hc1]
  rcases abs_cases δ with ⟨h, -⟩ | ⟨h, -⟩ <;> rcases abs_cases (2 * t - 1) with ⟨h', -⟩ | ⟨h', -⟩ <;> rw [h, h']
  · ring
  · rw [neg_mul (2 * t - 1) (δ / 2), Real.sin_neg]; ring
  · rw [neg_div, mul_neg (2 * t - 1) (δ / 2), Real.sin_neg, Real.sin_neg]; ring
  · rw [neg_div, neg_mul_neg, Real.sin_neg]; ring

theorem norm_le_of_sq {z : ℂ} {k b x : ℝ} (hk : 0 ≤ k) (hx : 0 ≤ x) (h : ‖z‖ ^ 2 ≤ k ^ 2 * x ^ 2) (hb : k * x ≤ b) : ‖z‖ ≤ b := by
  refine le_trans ?_ hb
  rw [← mul_pow] at h
  exact (pow_le_pow_iff_left₀ (norm_nonneg _) (by positivity) two_ne_zero).1 h

/-- What the wedges of each method allow. -/
theorem wedge_allowed (a : Arc) (m : ArcMethod) (he : 0 < a.maxError) (hr : 0 < a.radius) {n : ℕ} {w R : ℝ} (hw : Wedges a m n w)
    (hR : a.outerRadius m = .ok R) :
    |w| / 2 ≤ Real.pi / 2 ∧
    match m with
    | .inside => R = a.radius ∧ a.radius * (1 - Real.cos (|w| / 2)) ≤ a.maxError
    | .outside => R * Real.cos (|w| / 2) = a.radius ∧ |w| / 2 < Real.pi / 2 ∧ a.radius * (1 / Real.cos (|w| / 2) - 1) ≤ a.maxError
    | .mid => R = a.radius * (1 + Real.tan (|w| / 2 / 2) ^ 2) ∧ a.radius * Real.tan (|w| / 2 / 2) ^ 2 ≤ a.maxError / 2 := by
  obtain ⟨R', hR', h1, h2, h3, h4⟩ := outer_ok a m he hr hw
  obtain rfl : R = R' := by rw [hR] at hR'; exact Except.ok.inj hR'
  have ho := outer_eq a m he hr hw hR
  have hsm := hw.small _ (maxWedge_ok a m he hr)
  have hpi := Real.pi_pos
  have hem : min a.maxError a.radius ≤ a.maxError := min_le_left _ _
  have hc1 : Real.cos (w / 2) = Real.cos (|w| / 2) := by rw [← Real.cos_abs (w / 2), abs_div, abs_two]
  have hc2 : Real.cos (w / 4) = Real.cos (|w| / 2 / 2) := by
    rw [← Real.cos_abs (w / 4), abs_div, show |(4 : ℝ)| = 4 by norm_num]; congr 1; ring
  refine ⟨by linarith, ?_⟩
  cases m with
  | inside =>
    simp only [lowest] at h3 ho ⊢
    rw [ho, hc1] at h3
    exact ⟨ho, by linarith⟩
  | outside =>
    simp only [highest] at h2 ho ⊢
    rw [hc1] at ho
    have hne : Real.cos (|w| / 2) ≠ 0 := by
      intro h; rw [h, mul_zero] at ho; exact hr.ne ho
    refine ⟨ho, lt_of_le_of_ne (by linarith) (fun h => hne (by rw [h, Real.cos_pi_div_two])), ?_⟩
    have : a.radius * (1 / Real.cos (|w| / 2) - 1) = R - a.radius := by
      rw [← ho]; field_simp
    linarith
  | mid =>
    simp only [highest] at h2 ho ⊢
    rw [hc2] at ho
    have hq : 0 < Real.cos (|w| / 2 / 2) := Real.cos_pos_of_mem_Ioo ⟨by linarith [abs_nonneg w], by linarith⟩
    have e1 : R = a.radius * (1 + Real.tan (|w| / 2 / 2) ^ 2) := by
      have h5 := Real.tan_mul_cos hq.ne'
      have h6 := Real.sin_sq_add_cos_sq (|w| / 2 / 2)
      rw [← ho]
      have : Real.cos (|w| / 2 / 2) ^ 2 * (1 + Real.tan (|w| / 2 / 2) ^ 2) = 1 := by
        rw [mul_add, mul_one, ← mul_pow, mul_comm (Real.cos _), h5]; linarith
      rw [mul_assoc, this, mul_one]
    exact ⟨e1, by rw [e1] at h2; linarith⟩

/-- Any line of the approximation, and the part of the arc it stands for. -/
theorem line_near (a : Arc) (m : ArcMethod) (he : 0 < a.maxError) (hr : 0 < a.radius) {n : ℕ} {w R : ℝ} (hw : Wedges a m n w)
    (hR : a.outerRadius m = .ok R) (i : ℕ) (hi : i ≤ inner m n) (t : ℝ) (ht0 : 0 ≤ t) (ht1 : t ≤ 1) :
    ‖((corner a m n w R i).1 : ℂ) + t * ((corner a m n w R (i + 1)).1 *
        cw ((corner a m n w R (i + 1)).2 - (corner a m n w R i).2) - (corner a m n w R i).1) -
      a.radius * cw (t * ((corner a m n w R (i + 1)).2 - (corner a m n w R i).2))‖ ≤ allowed m a.maxError := by
  obtain ⟨R', hR', -, -, -, hin⟩ := outer_ok a m he hr hw
  obtain rfl : R = R' := by rw [hR] at hR'; exact Except.ok.inj hR'
  obtain ⟨hpi2, hal⟩ := wedge_allowed a m he hr hw hR
  have h0 : 0 ≤ |w| / 2 := by positivity
  set α := |w| / 2 with hα
  set r := a.radius with hrd
  have hx0 : 0 ≤ |2 * t - 1| := abs_nonneg _
  have hx1 : |2 * t - 1| ≤ 1 := by rw [abs_le]; constructor <;> linarith
  have hcos : Real.cos α ≤ 1 := Real.cos_le_one _
  -- the first half line, for `mid` and `outside`
  have first : Arc.phase m = true → ∀ s δ : ℝ, 0 ≤ s → s ≤ 1 → |δ| = α →
      ‖(r : ℂ) + s * (R * cw δ - r) - r * cw (s * δ)‖ ≤ allowed m a.maxError := by
    intro hph s δ hs0 hs1 hδ
    cases m with
    | inside => cases hph
    | outside =>
      obtain ⟨e1, hlt, e2⟩ := hal
      have hc : 0 < Real.cos α := Real.cos_pos_of_mem_Ioo ⟨by linarith [Real.pi_pos], hlt⟩
      have hR2 : R = r / Real.cos α := by rw [← e1]; field_simp
      have hone : 1 ≤ 1 / Real.cos α := by rw [le_div_iff₀ hc]; linarith
      refine norm_le_of_sq hr.le (x := 1 / Real.cos α - 1) (by linarith) ?_ e2
      rw [norm_half, hδ, e1]
      have e3 : R * Real.sin α = r * Real.tan α := by rw [hR2, Real.tan_eq_sin_div_cos]; ring
      rw [e3]
      have := mul_le_mul_of_nonneg_left (near_tangent h0 hlt hs0 hs1) (sq_nonneg r)
      refine le_trans (le_of_eq ?_) this
      ring
    | mid =>
      obtain ⟨e1, e2⟩ := hal
      have H := half_tan h0 hpi2
      set τ := Real.tan (α / 2)
      refine norm_le_of_sq hr.le (x := τ ^ 2) (sq_nonneg _) ?_ e2
      rw [norm_half, hδ]
      have e3 : R * Real.cos α = r * (1 - τ ^ 2) := by rw [e1, mul_assoc, H.cos]
      have e4 : R * Real.sin α = r * (2 * τ) := by rw [e1, mul_assoc, H.sin]
      rw [e3, e4]
      have := mul_le_mul_of_nonneg_left (near_mid_first H h0 hpi2 hs0 hs1) (sq_nonneg r)
      refine le_trans (le_of_eq ?_) this
      ring
  rcases corner_kind a m hw hin i hi with ⟨c1, c2, c3⟩ | ⟨hph, hc, c3⟩
  · rw [c1, c2, c3]
    cases m with
    | inside =>
      obtain ⟨e1, e2⟩ := hal
      refine norm_le_of_sq hr.le (x := 1 - Real.cos α) (by linarith) ?_ e2
      rw [e1, norm_full, ← hα]
      have := mul_le_mul_of_nonneg_left (near_chord h0 hpi2 hx0 hx1) (sq_nonneg r)
      refine le_trans (le_of_eq ?_) this
      ring
    | outside =>
      obtain ⟨e1, hlt, e2⟩ := hal
      have hc : 0 < Real.cos α := Real.cos_pos_of_mem_Ioo ⟨by linarith [Real.pi_pos], hlt⟩
      have hR2 : R = r / Real.cos α := by rw [← e1]; field_simp
      have hone : 1 ≤ 1 / Real.cos α := by rw [le_div_iff₀ hc]; linarith
      refine norm_le_of_sq hr.le (x := 1 / Real.cos α - 1) (by linarith) ?_ e2
      rw [norm_full, ← hα, e1]
      have e3 : R * Real.sin α = r * Real.tan α := by rw [hR2, Real.tan_eq_sin_div_cos]; ring
      rw [e3]
      have := mul_le_mul_of_nonneg_left (near_tangent h0 hlt hx0 hx1) (sq_nonneg r)
      refine le_trans (le_of_eq ?_) this
      ring
    | mid =>
      obtain ⟨e1, e2⟩ := hal
      have H := half_tan h0 hpi2
      set τ := Real.tan (α / 2)
      refine norm_le_of_sq hr.le (x := τ ^ 2) (sq_nonneg _) ?_ e2
      rw [norm_full, ← hα]
      have e3 : R * Real.cos α = r * (1 - τ ^ 2) := by rw [e1, mul_assoc, H.cos]
      have e4 : R * Real.sin α = r * (2 * τ) := by rw [e1, mul_assoc, H.sin]
      rw [e3, e4]
      have := mul_le_mul_of_nonneg_left (near_mid H h0 hpi2 hx0 hx1) (sq_nonneg r)
      refine le_trans (le_of_eq ?_) this
      ring
  · have hw2 : |w / 2| = α := by rw [abs_div, abs_two]
    rcases hc with ⟨c1, c2⟩ | ⟨c1, c2⟩ <;> rw [c1, c2, c3]
    · exact first hph t (w / 2) ht0 ht1 hw2
    · rw [norm_half']
      exact first hph (1 - t) (-(w / 2)) (by linarith) (by linarith) (by rw [_root_.abs_neg, hw2])

theorem corner_time (m : ArcMethod) {n : ℕ} (hn : 0 < n) (i : ℕ) (hi : i ≤ inner m n + 1) :
    cornerFraction m n i = lineTime m (inner m n + 1) i := by
  unfold cornerFraction
  have hnR : (n : ℝ) ≠ 0 := by positivity
  by_cases h0 : i = 0
  · subst h0; cases m <;> simp [lineTime]
  rw [if_neg h0]
  have hc : ((i - 1 : ℕ) : ℝ) = i - 1 := by rw [Nat.cast_sub (by omega)]; simp
  by_cases h1 : i ≤ inner m n
  · rw [if_pos h1]
    cases m
    · have e : inner .inside n + 1 = n := by unfold inner; simp [Arc.phase]; omega
      simp only [lineTime, fraction, hc, e]; ring
    all_goals
      simp only [lineTime, fraction, hc]
      rw [if_neg h0, if_neg (by omega)]
      simp only [inner, Arc.phase, if_true]
      push_cast
      congr 1 <;> ring
  · obtain rfl : i = inner m n + 1 := by omega
    rw [if_neg h1]
    cases m
    · have e : inner .inside n + 1 = n := by unfold inner; simp [Arc.phase]; omega
      simp only [lineTime, e]; rw [div_self hnR]
    all_goals simp [lineTime]

/-! ## C113 -/

/-- **C113** (any plane): if turning the start by the computed angle about the computed centre gives the end, the lines of an
arc keep step with the helix, in space. -/
theorem C113_step (p : Pl) (g : GCode) (s : V3) (q : Quat) (incr arcIncr : Bool) (e : ℝ) (a : Arc)
    (h : g.arcOf s p.normal q incr arcIncr e = .ok a) (hne : p.coord s ≠ p.coord (g.arcEnd s incr)) (he : 0 < e)
    (hsw : turned (p.coord a.pCenter) (p.coord s) a.angle 1 = p.coord (g.arcEnd s incr)) (m : ArcMethod) :
    ∃ ls, a.iterVertices m = .ok ls ∧
      InStep p ls (p.coord a.pCenter) (p.coord s) a.angle (p.height s) (p.height (g.arcEnd s incr)) (allowed m e)
        (lineTime m ls.length) := by
  have Fa := arcOf_ok p g s q incr arcIncr e a h
  have hsw' : Sweeps p a := by
    unfold Sweeps
    rw [Fa.cStart, Fa.cEnd, ← hsw]
    unfold turned cw
    rw [one_mul, add_sub_cancel_left]
  obtain ⟨hr, hhC, hd1, hd2⟩ := C56_center p g s q incr arcIncr e a h hne
  have hang := angle_ne p a hsw' (by rw [Fa.cStart, Fa.cEnd]; exact hne)
  have he' : 0 < a.maxError := by rw [Fa.maxError]; exact he
  obtain ⟨n, w, W⟩ := wedges a m he' hr hang
  obtain ⟨R, hR, -⟩ := outer_ok a m he' hr W
  have hrC : (a.radius : ℂ) ≠ 0 := by exact_mod_cast hr.ne'
  set u : ℂ := (p.coord a.pStart - p.coord a.pCenter) / a.radius with hu
  have hu' : p.coord a.pStart - p.coord a.pCenter = a.radius * u := by rw [hu]; field_simp
  have hu1 : ‖u‖ = 1 := by
    rw [hu, norm_div, Fa.cStart, hd1, Complex.norm_real, Real.norm_of_nonneg hr.le, div_self hr.ne']
  have hcp := fun i x hx => corner_point p a m (n := n) (w := w) (R := R) u Fa.normal Fa.hpStart Fa.hpCenter
    (by rw [Fa.hStart]; simp) (by rw [Fa.hEnd]; simp) hr hu' hu1 hsw' i x hx
  have hch := fun i x hx => corner_height p Fa m (R := R) W hang i x hx
  refine ⟨_, iterVertices_ok a m W hR, ?_⟩
  rw [lines_zip]
  set es := (List.range (inner m n)).map (a.vertex m w ((a.pStart - a.pCenter).normalized.mul R)) ++ [a.pEnd + a.hEnd]
    with hes
  set s0 := a.pCenter + (a.pStart - a.pCenter) + a.hStart with hs0
  have hlen : ((s0 :: es).zip es).length = inner m n + 1 := by
    rw [List.length_zip, hes]; simp
  have hle : es.length = inner m n + 1 := by rw [hes]; simp
  unfold InStep
  rw [hlen]
  refine ⟨?_, ?_, ?_⟩
  · rw [← corner_time m W.pos 0 (by omega)]; rfl
  · rw [← corner_time m W.pos _ (le_refl _)]; unfold cornerFraction; rw [if_neg (by omega), if_neg (by omega)]
  intro i l hl
  obtain ⟨hi, hl⟩ := List.getElem?_eq_some_iff.1 hl
  rw [hlen] at hi
  have h1 : i < (s0 :: es).length := by simp; omega
  have h2 : i < es.length := by omega
  rw [List.getElem_zip] at hl
  have hx1 : (s0 :: es)[i]? = some l.1 := by rw [← hl]; exact List.getElem?_eq_getElem h1
  have hx2 : (s0 :: es)[i + 1]? = some l.2 := by
    rw [← hl, List.getElem?_cons_succ]; exact List.getElem?_eq_getElem h2
  rw [← corner_time m W.pos i (by omega), ← corner_time m W.pos (i + 1) (by omega)]
  refine ⟨(corner_gap a m W i (by omega)).1, fun t ht0 ht1 => ⟨?_, ?_⟩⟩
  · unfold onSegment
    rw [height_add, height_mul, height_sub, hch i _ hx1, hch (i + 1) _ hx2]
    ring
  · have k1 := (hcp i _ hx1).1
    have k2 := (hcp (i + 1) _ hx2).1
    have key := line_near a m he' hr W hR i (by omega) t ht0 ht1
    rw [Fa.maxError] at key
    have f1 := corner_fraction a m R W i
    have f2 := corner_fraction a m R W (i + 1)
    have hS : p.coord s - p.coord a.pCenter = a.radius * u := by rw [← Fa.cStart]; exact hu'
    refine le_trans (le_of_eq ?_) key
    have ht : turned (p.coord a.pCenter) (p.coord s) a.angle (cornerFraction m n i + t * (cornerFraction m n (i + 1) - cornerFraction m n i)) =
        p.coord a.pCenter + cw ((corner a m n w R i).2 + t * ((corner a m n w R (i + 1)).2 - (corner a m n w R i).2)) * (a.radius * u) := by
      unfold turned
      rw [hS, f1, f2]
      unfold cw
      congr 4
      push_cast; ring
    rw [ht, ← sub_sub, coord_onSegment, k1, k2]
    have hdiff : cw (corner a m n w R (i + 1)).2 = cw (corner a m n w R i).2 *
        cw ((corner a m n w R (i + 1)).2 - (corner a m n w R i).2) := by
      rw [← cw_add]; congr 1; ring
    rw [hdiff, cw_add]
    generalize (corner a m n w R (i + 1)).2 - (corner a m n w R i).2 = δ
    generalize (corner a m n w R i).2 = θ
    generalize (corner a m n w R (i + 1)).1 = ρ'
    generalize (corner a m n w R i).1 = ρ
    rw [show (ρ : ℂ) * cw θ * u + t * (ρ' * (cw θ * cw δ) * u - ρ * cw θ * u) - cw θ * cw (t * δ) * (a.radius * u) =
      (ρ + t * (ρ' * cw δ - ρ) - a.radius * cw (t * δ)) * (cw θ * u) by ring, norm_mul _ (cw θ * u), norm_mul, norm_cw, hu1, mul_one, mul_one]

/-- **C113** (all the while): at each time the lines have a point as high as the helix, near it. -/
theorem C113_all {p : Pl} {ls : List (V3 × V3)} {c S : ℂ} {A h0 h1 b : ℝ} {F : ℕ → ℝ} (H : InStep p ls c S A h0 h1 b F)
    (f : ℝ) (hf0 : 0 ≤ f) (hf1 : f ≤ 1) :
    ∃ l ∈ ls, ∃ t, 0 ≤ t ∧ t ≤ 1 ∧ p.height (onSegment l t) = h0 + f * (h1 - h0) ∧
      ‖p.coord (onSegment l t) - turned c S A f‖ ≤ b := by
  classical
  obtain ⟨e0, e1, hl⟩ := H
  have hN : 0 < ls.length := by
    rcases Nat.eq_zero_or_pos ls.length with h | h
    · rw [h, e0] at e1; exact absurd e1 (by norm_num)
    · exact h
  have hex : ∃ i, f ≤ F (i + 1) := ⟨ls.length - 1, by rw [Nat.sub_add_cancel hN, e1]; exact hf1⟩
  have hi : Nat.find hex < ls.length := by
    have := Nat.find_min' hex (m := ls.length - 1) (by rw [Nat.sub_add_cancel hN, e1]; exact hf1)
    omega
  have hlo : F (Nat.find hex) ≤ f := by
    by_cases h : Nat.find hex = 0
    · rw [h, e0]; exact hf0
    · have := Nat.find_min hex (m := Nat.find hex - 1) (by omega)
      rw [Nat.sub_add_cancel (by omega)] at this
      exact (not_le.1 this).le
  have hhi := Nat.find_spec hex
  set i := Nat.find hex
  obtain ⟨hlt, h2⟩ := hl i _ (List.getElem?_eq_getElem hi)
  have hd : 0 < F (i + 1) - F i := by linarith
  have hft : F i + (f - F i) / (F (i + 1) - F i) * (F (i + 1) - F i) = f := by
    rw [div_mul_cancel₀ _ hd.ne']; ring
  have ht0 : 0 ≤ (f - F i) / (F (i + 1) - F i) := div_nonneg (by linarith) hd.le
  have ht1 : (f - F i) / (F (i + 1) - F i) ≤ 1 := by rw [div_le_one hd]; linarith
  have h3 := h2 _ ht0 ht1
  rw [hft] at h3
  exact ⟨_, List.getElem_mem hi, _, ht0, ht1, h3⟩

/-- **C113** (XY plane): the path that `linearize_arc` gives keeps step, in space, with the helix from start to end about the
centre of the arc. -/
theorem C113_path (g : GCode) (start : Position) (plane : Option Cls)
    (hpl : plane = none ∨ plane = some .selectXYPlane) (m : ArcMethod) (arcIncr : Bool) (e : ℝ) (d : ℤ) (vs : List V3)
    (s : V3) (hs : start.vector = s) (hne : xy.coord s ≠ xy.coord (g.arcEnd s false))
    (h : linearizeArc g start plane (some m) false arcIncr e d = (vs, .done)) :
    ∃ (c : ℂ) (A : ℝ), turned c (xy.coord s) A 1 = xy.coord (g.arcEnd s false) ∧
      (g.cls.isSub .arcMoveCW = true → 0 < A ∧ A < 2 * Real.pi) ∧
      (g.cls.isSub .arcMoveCW = false → -(2 * Real.pi) < A ∧ A < 0) ∧
      (∀ x, g.num? 'R' = some x → ‖xy.coord s - c‖ = |(x : ℝ)| ∧ (0 < x → |A| ≤ Real.pi) ∧ (x < 0 → Real.pi ≤ |A|)) ∧
      (g.num? 'R' = none → MeanCentre (xy.coord s) (xy.coord (g.arcEnd s false)) (xy.coord (g.arcCenter s arcIncr)) c) ∧
      InStep xy (segments s vs) c (xy.coord s) A s.z (g.arcEnd s false).z (allowed m e) (lineTime m vs.length) := by
  obtain ⟨p, m', s', q, a, ls, D, rfl⟩ := linearize_done h
  obtain rfl : m = m' := Option.some.inj D.method
  obtain rfl : s = s' := by exact hs.symm.trans D.start
  have hp : p = xy := by
    have := D.plane
    rcases hpl with rfl | rfl <;> cases p <;> first | rfl | (exact absurd this (by decide))
  subst hp
  obtain rfl : Quat.one = q := Option.some.inj D.quat
  obtain ⟨h1, h2, h3, h4⟩ := C56_center xy g s _ false arcIncr e a D.ok hne
  obtain ⟨h5, h6, h7⟩ := C58_xy_partial g s false arcIncr e a D.ok
  have F := arcOf_ok xy g s _ false arcIncr e a D.ok
  have hang := angle_ne xy a (sweeps_xy g s false arcIncr e a D.ok) (by rw [F.cStart, F.cEnd]; exact hne)
  have hend : turned (xy.coord a.pCenter) (xy.coord s) a.angle 1 = xy.coord (g.arcEnd s false) := by
    unfold turned
    rw [one_mul, ← h5]; ring
  refine ⟨xy.coord a.pCenter, a.angle, hend, ?_, ?_, ?_, ?_, ?_⟩
  · intro hc; exact ⟨lt_of_le_of_ne (h6 hc).1 (Ne.symm hang), (h6 hc).2⟩
  · intro hc; exact ⟨(h7 hc).1, lt_of_le_of_ne (h7 hc).2 hang⟩
  · intro x hx
    have h8 := C58_half_partial g s false arcIncr e a D.ok hne x hx
    exact ⟨by rw [h3, C56_radius xy g s _ false arcIncr e a D.ok x hx], h8.1, h8.2⟩
  · intro hR; exact C121_mean xy g s _ false arcIncr e a D.ok hne hR
  · obtain ⟨ls', h9, h10⟩ := C113_step xy g s _ false arcIncr e a D.ok hne D.pos hend m
    obtain rfl : ls = ls' := by have := D.verts; rw [h9] at this; exact (Except.ok.inj this).symm
    obtain ⟨-, -, h11⟩ := done_shape D
    simp only [Bool.false_eq_true, if_false]
    rw [← h11, List.length_map]
    exact h10

/-! ## Instance -/

/-- `G3 X0 Y1 Z2 I-1`: a quarter of a circle that climbs by 2. -/
def climbArc : GCode := ⟨.arcMoveCCW, ⟨'G', .num 3⟩, [⟨'X', .num 0⟩, ⟨'Y', .num 1⟩, ⟨'Z', .num 2⟩, ⟨'I', .num (-1)⟩], false⟩

/-- Whenever the helix is at the height `2 f`, the lines are at that height as well, within 1/200 of `exp (i f π/2)`. -/
example : ∃ vs, linearizeArc climbArc (at3 1 0 0) none (some .mid) false true (1 / 100) 3 = (vs, .done) ∧
    ∀ f, 0 ≤ f → f ≤ 1 → ∃ l ∈ segments ⟨(1 : ℚ), (0 : ℚ), (0 : ℚ)⟩ vs, ∃ t, 0 ≤ t ∧ t ≤ 1 ∧ (onSegment l t).z = f * 2 ∧
      ‖xy.coord (onSegment l t) - Complex.exp ((f * (Real.pi / 2) : ℝ) * Complex.I)‖ ≤ 1 / 200 := by
  have hs := at3_vector 1 0 0
  have hE : climbArc.arcEnd ⟨(1 : ℚ), (0 : ℚ), (0 : ℚ)⟩ false = ⟨0, 1, 2⟩ := by
    simp [GCode.arcEnd, climbArc, GCode.num?, GCode.param, Word.num]
  have hne : xy.coord ⟨(1 : ℚ), (0 : ℚ), (0 : ℚ)⟩ ≠ xy.coord (climbArc.arcEnd ⟨(1 : ℚ), (0 : ℚ), (0 : ℚ)⟩ false) := by
    rw [hE]; intro h; have := congrArg Complex.re h; simp [Pl.coord] at this
  have hC : xy.coord (climbArc.arcCenter ⟨(1 : ℚ), (0 : ℚ), (0 : ℚ)⟩ true) = 0 := by
    apply Complex.ext <;>
      simp [GCode.arcCenter, climbArc, GCode.num?, GCode.param, Word.num, Pl.coord, add_mk]
  have hS : xy.coord ⟨(1 : ℚ), (0 : ℚ), (0 : ℚ)⟩ = 1 := by
    apply Complex.ext <;> simp [Pl.coord]
  have hI : xy.coord ⟨0, 1, 2⟩ = Complex.I := rfl
  have hR : climbArc.num? 'R' = none := by decide +kernel
  obtain ⟨vs, h⟩ := (C62_done climbArc _ .mid false true (1 / 100) 3 _ hs hne).2
    ⟨by decide +kernel, by norm_num, by decide +kernel, fun r hr => by rw [hR] at hr; cases hr⟩
  refine ⟨vs, h, ?_⟩
  obtain ⟨c, A, h1, -, h2, -, h3, h4⟩ := C113_path _ _ _ (.inr rfl) _ _ _ _ _ _ hs hne h
  have hc := (h3 hR).fits (by rw [hE, hC, hS, hI]; simp)
  rw [hC] at hc
  subst hc
  obtain ⟨hA0, hA1⟩ := h2 (by decide)
  rw [hS, hE, hI] at h1
  have hA : A = -(Real.pi / 2) := by
    have h5 : cw A = Complex.I := by
      rw [← h1]; unfold turned cw; simp
    rw [cw_eq] at h5
    have h6 := congrArg Complex.im h5
    simp only [Complex.I_im] at h6
    have h7 : Real.cos (A + Real.pi / 2) = 1 := by rw [Real.cos_add_pi_div_two]; exact h6
    have := (Real.cos_eq_one_iff_of_lt_of_lt (by linarith [Real.pi_pos]) (by linarith [Real.pi_pos])).1 h7
    linarith
  intro f hf0 hf1
  obtain ⟨l, hl, t, ht0, ht1, k1, k2⟩ := C113_all h4 f hf0 hf1
  refine ⟨l, hl, t, ht0, ht1, ?_, ?_⟩
  · rw [hE] at k1
    exact k1.trans (by simp)
  · have hσ : turned 0 (xy.coord ⟨(1 : ℚ), (0 : ℚ), (0 : ℚ)⟩) A f = Complex.exp ((f * (Real.pi / 2) : ℝ) * Complex.I) := by
      unfold turned
      rw [hS, hA]
      simp
    rw [hσ] at k2
    refine k2.trans (le_of_eq ?_)
    unfold allowed; norm_num

end Pygcode
