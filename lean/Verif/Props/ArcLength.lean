import Verif.Props.ArcFollow
import Mathlib.Analysis.SpecialFunctions.Trigonometric.Bounds

/-!
# Length and number of the lines of a linearized arc (C98)

A machine with a constant feed rate takes as long for the lines as for the arc if their lengths agree.
-/

namespace Pygcode
open Pl Machine Props

/-! ## Specification -/

/-- Length of a line. -/
noncomputable def lineLength (l : V3 × V3) : ℝ := √((l.2.x - l.1.x) ^ 2 + (l.2.y - l.1.y) ^ 2 + (l.2.z - l.1.z) ^ 2)

/-- Length of a path of lines. -/
noncomputable def pathLength (ls : List (V3 × V3)) : ℝ := (ls.map lineLength).sum

/-- Length of a helix of radius `r` that turns by `A` and climbs by `H`. -/
noncomputable def helixLength (r A H : ℝ) : ℝ := √((r * A) ^ 2 + H ^ 2)

/-- Smallest and largest radius of the helices between which the length lies. -/
noncomputable def radii (m : ArcMethod) (r e : ℝ) : ℝ × ℝ :=
  match m with
  | .inside => (max 0 (r - e), r)
  | .outside => (r, r + e)
  | .mid => (r, r + e / 2)

/-! ## Chords -/

theorem chord_sq {u : ℂ} (hu : ‖u‖ = 1) (r1 r2 x y : ℝ) :
    ‖(r2 : ℂ) * cw y * u - r1 * cw x * u‖ ^ 2 = (r2 - r1) ^ 2 + 4 * (r1 * r2) * Real.sin ((y - x) / 2) ^ 2 := by
  rw [show (r2 : ℂ) * cw y * u - r1 * cw x * u = (r2 * cw y - r1 * cw x) * u by ring, norm_mul, hu, mul_one, Complex.sq_norm,
    Complex.normSq_apply, cw_eq, cw_eq, Real.sin_sq_eq_half_sub, show 2 * ((y - x) / 2) = y - x by ring, Real.cos_sub]
  simp only [Complex.sub_re, Complex.sub_im, Complex.re_ofReal_mul, Complex.im_ofReal_mul]
  linear_combination r2 ^ 2 * Real.sin_sq_add_cos_sq y + r1 ^ 2 * Real.sin_sq_add_cos_sq x

theorem mul_cos_le_sin {x : ℝ} (h0 : 0 ≤ x) (h1 : x ≤ Real.pi / 2) : x * Real.cos x ≤ Real.sin x := by
  rcases h1.lt_or_eq with h | h
  · have hc : 0 < Real.cos x := Real.cos_pos_of_mem_Ioo ⟨by linarith [Real.pi_pos], h⟩
    have := Real.le_tan h0 h
    rw [Real.tan_eq_sin_div_cos, le_div_iff₀ hc] at this
    exact this
  · rw [h]; simp

/-- For angles up to a quarter turn, either way. -/
theorem sin_sq_bounds {x : ℝ} (h : |x| ≤ Real.pi / 2) :
    x ^ 2 * Real.cos x ^ 2 ≤ Real.sin x ^ 2 ∧ Real.sin x ^ 2 ≤ x ^ 2 ∧ 0 ≤ Real.cos x := by
  have hc : 0 ≤ Real.cos x := Real.cos_nonneg_of_mem_Icc (abs_le.1 h)
  refine ⟨?_, Real.sin_sq_le_sq, hc⟩
  rw [← mul_pow, sq_le_sq, abs_mul, abs_of_nonneg hc, ← Real.cos_abs x]
  have h1 := mul_cos_le_sin (abs_nonneg x) h
  refine h1.trans (le_of_eq ?_)
  rcases abs_cases x with ⟨h2, h3⟩ | ⟨h2, h3⟩
  · rw [h2, abs_of_nonneg]
    rw [h2] at h
    exact Real.sin_nonneg_of_nonneg_of_le_pi h3 (by linarith [Real.pi_pos])
  · rw [h2] at h ⊢
    rw [Real.sin_neg, abs_of_nonpos]
    have := Real.sin_nonneg_of_nonneg_of_le_pi (x := -x) (by linarith) (by linarith [Real.pi_pos])
    rw [Real.sin_neg] at this
    linarith

/-- The radius of the corners, method by method. -/
theorem outer_eq (a : Arc) (m : ArcMethod) (he : 0 < a.maxError) (hr : 0 < a.radius) {n : ℕ} {w R : ℝ} (hw : Wedges a m n w)
    (hR : a.outerRadius m = .ok R) :
    match m with
    | .inside => R = a.radius
    | .outside => R * Real.cos (w / 2) = a.radius
    | .mid => R * Real.cos (w / 4) ^ 2 = a.radius := by
  have hm : 0 < min a.maxError a.radius := lt_min he hr
  have hmr : min a.maxError a.radius ≤ a.radius := min_le_right _ _
  have hc := hw.cos
  have hsm := hw.small _ (maxWedge_ok a m he hr)
  cases m with
  | inside =>
    simp only [Arc.outerRadius, Except.ok.injEq] at hR
    exact hR.symm
  | outside =>
    have hpos : 0 < Real.cos (w / 2) := lt_of_lt_of_le (outside_pos hm hmr) hc
    simp only [Arc.outerRadius, hw.angle, bind, Except.bind, divE, if_neg hpos.ne', Except.ok.injEq] at hR
    show R * Real.cos (w / 2) = a.radius
    rw [← hR, abs_of_pos (div_pos hr hpos)]
    exact div_mul_cancel₀ _ hpos.ne'
  | mid =>
    have hq : 0 < Real.cos (w / 4) := by
      apply Real.cos_pos_of_mem_Ioo
      have := abs_le.1 hsm.1
      constructor <;> linarith [Real.pi_pos, hsm.2]
    simp only [Arc.outerRadius, hw.angle, bind, Except.bind, Except.ok.injEq] at hR
    show R * Real.cos (w / 4) ^ 2 = a.radius
    rw [← hR]
    have h1 := Real.tan_mul_cos hq.ne'
    have h2 := Real.sin_sq_add_cos_sq (w / 4)
    linear_combination a.radius * h2 + a.radius * (Real.tan (w / 4) * Real.cos (w / 4) + Real.sin (w / 4)) * h1

/-- What lies between two neighbouring corners: a wedge between two corners of the outer radius, or half a wedge at either end. -/
theorem corner_kind (a : Arc) (m : ArcMethod) {n : ℕ} {w R : ℝ} (hw : Wedges a m n w) (hin : Arc.phase m = false → R = a.radius)
    (i : ℕ) (hi : i ≤ inner m n) :
    ((corner a m n w R i).1 = R ∧ (corner a m n w R (i + 1)).1 = R ∧
        (corner a m n w R (i + 1)).2 - (corner a m n w R i).2 = w) ∨
      (Arc.phase m = true ∧ ((corner a m n w R i).1 = a.radius ∧ (corner a m n w R (i + 1)).1 = R ∨
          (corner a m n w R i).1 = R ∧ (corner a m n w R (i + 1)).1 = a.radius) ∧
        (corner a m n w R (i + 1)).2 - (corner a m n w R i).2 = w / 2) := by
  have hn := hw.pos
  have htot := hw.total
  unfold corner Arc.curAngle
  rw [if_neg (Nat.succ_ne_zero i), Nat.add_sub_cancel]
  cases hph : Arc.phase m with
  | true =>
    have hinn : inner m n = n := by unfold inner; rw [hph]; rfl
    rw [hinn] at hi ⊢
    simp only [if_true]
    by_cases h0 : i = 0
    · subst h0
      refine .inr ⟨trivial, .inl ⟨by simp, by rw [if_pos (by omega)]⟩, ?_⟩
      rw [if_pos (by omega), if_pos rfl]
      push_cast; ring
    · rw [if_neg h0, if_pos hi]
      have hc : ((i - 1 + 1 : ℕ) : ℝ) = i := by rw [Nat.sub_add_cancel (by omega)]
      by_cases hi1 : i + 1 ≤ n
      · refine .inl ?_
        rw [if_pos hi1]
        refine ⟨rfl, rfl, ?_⟩
        simp only [hc]
        push_cast; ring
      · refine .inr ⟨trivial, .inr ?_, ?_⟩
        · rw [if_neg hi1]; exact ⟨rfl, rfl⟩
        · rw [if_neg hi1]
          obtain rfl : i = n := by omega
          simp only [hc]
          linarith
  | false =>
    have hinn : inner m n = n - 1 := by unfold inner; rw [hph]; rfl
    rw [hinn] at hi ⊢
    rw [hin hph]
    refine .inl ?_
    simp only [Bool.false_eq_true, if_false]
    by_cases h0 : i = 0
    · subst h0
      by_cases h1 : 0 + 1 ≤ n - 1
      · rw [if_pos h1]; simp
      · rw [if_neg h1]
        have : n = 1 := by omega
        subst this
        simp at htot ⊢
        exact htot.symm
    · rw [if_neg h0, if_pos hi]
      have hc : ((i - 1 + 1 : ℕ) : ℝ) = i := by rw [Nat.sub_add_cancel (by omega)]
      by_cases h1 : i + 1 ≤ n - 1
      · rw [if_pos h1]
        refine ⟨rfl, rfl, ?_⟩
        simp only [hc]
        push_cast; ring
      · rw [if_neg h1]
        refine ⟨rfl, rfl, ?_⟩
        have : n = i + 1 := by omega
        rw [this] at htot
        simp only [hc]
        push_cast at htot
        linarith

/-- Length in the plane of the line between two corners. -/
theorem chord_bounds (a : Arc) (m : ArcMethod) (he : 0 < a.maxError) (hr : 0 < a.radius) {n : ℕ} {w R : ℝ} (hw : Wedges a m n w)
    (hR : a.outerRadius m = .ok R) {u : ℂ} (hu : ‖u‖ = 1) (i : ℕ) (hi : i ≤ inner m n) :
    let δ := (corner a m n w R (i + 1)).2 - (corner a m n w R i).2
    let ch := ‖((corner a m n w R (i + 1)).1 : ℂ) * cw (corner a m n w R (i + 1)).2 * u -
      (corner a m n w R i).1 * cw (corner a m n w R i).2 * u‖
    ((radii m a.radius a.maxError).1 * δ) ^ 2 ≤ ch ^ 2 ∧ ch ^ 2 ≤ ((radii m a.radius a.maxError).2 * δ) ^ 2 := by
  intro δ ch
  obtain ⟨R', hR', hRr, hRhi, hRlo, hRin⟩ := outer_ok a m he hr hw
  obtain rfl : R = R' := Except.ok.inj (hR.symm.trans hR')
  have heq := outer_eq a m he hr hw hR
  have hsm := hw.small _ (maxWedge_ok a m he hr)
  have heps : min a.maxError a.radius ≤ a.maxError := min_le_left _ _
  have hwpi : |w| ≤ Real.pi := hsm.1.trans hsm.2
  have hx : |w / 2| ≤ Real.pi / 2 := by rw [abs_div, abs_two]; linarith
  have hy : |w / 4| ≤ Real.pi / 2 := by
    rw [abs_div, show |(4 : ℝ)| = 4 by norm_num]; linarith [Real.pi_pos]
  obtain ⟨x1, x2, x3⟩ := sin_sq_bounds hx
  obtain ⟨y1, y2, y3⟩ := sin_sq_bounds hy
  have hR0 : 0 ≤ R := hr.le.trans hRr
  have hch : ch ^ 2 = _ := chord_sq hu _ _ _ _
  have hR2 : 0 ≤ R ^ 2 := sq_nonneg R
  have hw2 : 0 ≤ w ^ 2 := sq_nonneg w
  have hX1 := mul_le_mul_of_nonneg_left x1 hR2
  have hX2 := mul_le_mul_of_nonneg_left x2 hR2
  have hdbl : Real.sin (w / 2) ^ 2 = 4 * Real.sin (w / 4) ^ 2 * Real.cos (w / 4) ^ 2 := by
    rw [show w / 2 = 2 * (w / 4) by ring, Real.sin_two_mul]; ring
  have hsc := Real.sin_sq_add_cos_sq (w / 4)
  have hsc2 := Real.sin_sq_add_cos_sq (w / 2)
  have hcos2 : Real.cos (w / 2) = 1 - 2 * Real.sin (w / 4) ^ 2 := by
    rw [show w / 2 = 2 * (w / 4) by ring, Real.cos_two_mul]; linarith
  have hlow : 0 ≤ (radii m a.radius a.maxError).1 := by
    cases m <;> simp only [radii]
    · exact le_max_left _ _
    · exact hr.le
    · exact hr.le
  have hhigh : R ≤ (radii m a.radius a.maxError).2 := by
    cases m <;> simp only [radii, highest] at hRhi ⊢ <;> linarith
  have hhi2 : R ^ 2 ≤ (radii m a.radius a.maxError).2 ^ 2 := pow_le_pow_left₀ hR0 hhigh 2
  have hhi3 := mul_le_mul_of_nonneg_right hhi2 hw2
  rcases corner_kind a m hw hRin i hi with ⟨k1, k2, k3⟩ | ⟨hph, k, k3⟩
  · rw [k1, k2, k3] at hch
    have hδ : δ = w := k3
    rw [hδ, hch]
    constructor
    · have hlo : (radii m a.radius a.maxError).1 ^ 2 * w ^ 2 ≤ 4 * R ^ 2 * Real.sin (w / 2) ^ 2 := by
        cases m with
        | inside =>
          simp only [radii, lowest] at hRlo ⊢
          have h1 : max 0 (a.radius - a.maxError) ≤ R * Real.cos (w / 2) := max_le (mul_nonneg hR0 x3) (by linarith)
          have h2 := pow_le_pow_left₀ (le_max_left _ _) h1 2
          have h3 : (R * Real.cos (w / 2)) ^ 2 * w ^ 2 ≤ 4 * R ^ 2 * Real.sin (w / 2) ^ 2 := by linarith
          exact (mul_le_mul_of_nonneg_right h2 hw2).trans h3
        | outside =>
          simp only [radii] at heq ⊢
          rw [← heq]
          linarith
        | mid =>
          simp only [radii] at heq ⊢
          rw [← heq, hdbl]
          have h1 : R ^ 2 * Real.cos (w / 4) ^ 2 * ((w / 4) ^ 2 * Real.cos (w / 4) ^ 2) ≤
            R ^ 2 * Real.cos (w / 4) ^ 2 * Real.sin (w / 4) ^ 2 := mul_le_mul_of_nonneg_left y1 (by positivity)
          linarith
      linarith
    · linarith
  · have hδ : δ = w / 2 := k3
    have hch2 : ch ^ 2 = (R - a.radius) ^ 2 + 4 * (a.radius * R) * Real.sin (w / 4) ^ 2 := by
      rw [hch, k3, show w / 2 / 2 = w / 4 by ring]
      rcases k with ⟨e1, e2⟩ | ⟨e1, e2⟩ <;> rw [e1, e2] <;> ring
    rw [hδ, hch2]
    cases m with
    | inside => cases hph
    | outside =>
      simp only at heq
      have h1 : (R - a.radius) ^ 2 + 4 * (a.radius * R) * Real.sin (w / 4) ^ 2 = R ^ 2 * Real.sin (w / 2) ^ 2 := by
        have h2 : 2 * Real.sin (w / 4) ^ 2 = 1 - Real.cos (w / 2) := by linarith
        rw [show 4 * (a.radius * R) * Real.sin (w / 4) ^ 2 = 2 * (a.radius * R) * (2 * Real.sin (w / 4) ^ 2) by ring, h2, ← heq]
        linear_combination -R ^ 2 * hsc2
      rw [h1]
      constructor
      · simp only [radii]
        rw [← heq]
        linarith
      · linarith
    | mid =>
      simp only at heq
      have h1 : (R - a.radius) ^ 2 + 4 * (a.radius * R) * Real.sin (w / 4) ^ 2 =
          R ^ 2 * Real.sin (w / 4) ^ 2 * (Real.sin (w / 4) ^ 2 + 4 * Real.cos (w / 4) ^ 2) := by
        have h2 : Real.sin (w / 4) ^ 2 = 1 - Real.cos (w / 4) ^ 2 := by linarith
        rw [h2, ← heq]
        ring
      rw [h1]
      have hs := sq_nonneg (Real.sin (w / 4))
      constructor
      · simp only [radii]
        rw [← heq]
        have h3 : R ^ 2 * Real.cos (w / 4) ^ 2 * ((w / 4) ^ 2 * Real.cos (w / 4) ^ 2) ≤
            R ^ 2 * Real.cos (w / 4) ^ 2 * Real.sin (w / 4) ^ 2 := mul_le_mul_of_nonneg_left y1 (by positivity)
        have h4 : 0 ≤ R ^ 2 * Real.sin (w / 4) ^ 2 * Real.sin (w / 4) ^ 2 := by positivity
        linarith
      · have h3 : Real.sin (w / 4) ^ 2 + 4 * Real.cos (w / 4) ^ 2 ≤ 4 := by linarith
        have h4 : R ^ 2 * Real.sin (w / 4) ^ 2 * (Real.sin (w / 4) ^ 2 + 4 * Real.cos (w / 4) ^ 2) ≤
            R ^ 2 * Real.sin (w / 4) ^ 2 * 4 := mul_le_mul_of_nonneg_left h3 (by positivity)
        have h5 : R ^ 2 * Real.sin (w / 4) ^ 2 ≤ R ^ 2 * (w / 4) ^ 2 := mul_le_mul_of_nonneg_left y2 hR2
        linarith

/-! ## Sums -/

theorem sum_ge (k : ℝ) (ls : List (V3 × V3)) : ∀ F : ℕ → ℝ, (∀ i l, ls[i]? = some l → k * (F (i + 1) - F i) ≤ lineLength l) →
    k * (F ls.length - F 0) ≤ pathLength ls := by
  induction ls with
  | nil => intro F _; simp [pathLength]
  | cons l ls ih =>
    intro F h
    have h1 := ih (fun i => F (i + 1)) (fun i l hl => h (i + 1) l (by simpa using hl))
    have h2 := h 0 l rfl
    simp only [pathLength, List.map_cons, List.sum_cons, List.length_cons] at h1 ⊢
    linarith

theorem sum_le (k : ℝ) (ls : List (V3 × V3)) : ∀ F : ℕ → ℝ, (∀ i l, ls[i]? = some l → lineLength l ≤ k * (F (i + 1) - F i)) →
    pathLength ls ≤ k * (F ls.length - F 0) := by
  induction ls with
  | nil => intro F _; simp [pathLength]
  | cons l ls ih =>
    intro F h
    have h1 := ih (fun i => F (i + 1)) (fun i l hl => h (i + 1) l (by simpa using hl))
    have h2 := h 0 l rfl
    simp only [pathLength, List.map_cons, List.sum_cons, List.length_cons] at h1 ⊢
    linarith

theorem lineLength_sq (p : Pl) (l : V3 × V3) :
    lineLength l = √(‖p.coord l.2 - p.coord l.1‖ ^ 2 + (p.height l.2 - p.height l.1) ^ 2) := by
  rw [← coord_sub, ← height_sub, ← abs_eq p]
  rfl

/-- Heights of the corners. -/
theorem corner_height (p : Pl) {g : GCode} {s : V3} {q : Quat} {incr arcIncr : Bool} {e : ℝ} {a : Arc}
    (F : ArcFacts p g s q incr arcIncr e a) (m : ArcMethod) {n : ℕ} {w R : ℝ} (W : Wedges a m n w) (hang : a.angle ≠ 0)
    (i : ℕ) (x : V3)
    (hx : ((a.pCenter + (a.pStart - a.pCenter) + a.hStart) :: ((List.range (inner m n)).map
      (a.vertex m w ((a.pStart - a.pCenter).normalized.mul R)) ++ [a.pEnd + a.hEnd]))[i]? = some x) :
    p.height x = p.height s + cornerFraction m n i * (p.height (g.arcEnd s incr) - p.height s) := by
  rw [whole_start p F, whole_end p F] at hx
  unfold cornerFraction
  cases i with
  | zero =>
    simp only [List.getElem?_cons_zero, Option.some.injEq] at hx
    subst hx
    simp
  | succ i =>
    rw [List.getElem?_cons_succ, List.getElem?_append] at hx
    simp only [List.length_map, List.length_range] at hx
    rw [if_neg (Nat.succ_ne_zero i)]
    by_cases hi : i < inner m n
    · rw [if_pos hi, List.getElem?_map, List.getElem?_range hi] at hx
      simp only [Option.map_some, Option.some.injEq] at hx
      subst hx
      have hrot := Pl.rotate p ((a.pStart - a.pCenter).normalized.mul R) (fraction m n i * a.angle)
      have hflat : p.height (a.pStart - a.pCenter) = 0 := by simp [F.hpStart, F.hpCenter]
      rw [if_pos (by omega), Nat.add_sub_cancel]
      unfold Arc.vertex
      simp only [F.normal, height_add, height_mul, height_sub, hrot.2, height_normalized p _ hflat, F.hpCenter,
        F.hStart, F.hEnd, height_normal, zero_mul, one_mul, zero_add, curAngle_fraction m a W,
        mul_div_cancel_right₀ _ hang]
      ring
    · rw [if_neg hi] at hx
      have h0 : i - inner m n = 0 := by
        by_contra h0
        rw [List.getElem?_eq_none (by simp; omega)] at hx
        cases hx
      rw [h0] at hx
      simp only [List.getElem?_cons_zero, Option.some.injEq] at hx
      subst hx
      rw [if_neg (by omega)]
      ring

/-! ## Length -/

/-- **C98** (length, any plane): if turning the start by the computed angle about the computed centre gives the end, the lines
of an arc are together as long as a helix with the same sweep and climb, on a radius that differs from that of the arc
by at most the allowed error (inside: below; outside: above; mid: above, by at most half the error). -/
theorem C98_length (p : Pl) (g : GCode) (s : V3) (q : Quat) (incr arcIncr : Bool) (e : ℝ) (a : Arc)
    (h : g.arcOf s p.normal q incr arcIncr e = .ok a) (hne : p.coord s ≠ p.coord (g.arcEnd s incr)) (he : 0 < e)
    (hsw : turned (p.coord a.pCenter) (p.coord s) a.angle 1 = p.coord (g.arcEnd s incr)) (m : ArcMethod) :
    ∃ ls, a.iterVertices m = .ok ls ∧
      helixLength (radii m a.radius e).1 a.angle (p.height (g.arcEnd s incr) - p.height s) ≤ pathLength ls ∧
      pathLength ls ≤ helixLength (radii m a.radius e).2 a.angle (p.height (g.arcEnd s incr) - p.height s) := by
  have Fa := arcOf_ok p g s q incr arcIncr e a h
  have hsw' : Sweeps p a := by
    unfold Sweeps
    rw [Fa.cStart, Fa.cEnd, ← hsw]
    unfold turned cw
    rw [one_mul, add_sub_cancel_left]
  obtain ⟨hr, hhC, hd1, hd2⟩ := C56_center p g s q incr arcIncr e a h hne
  have hang := angle_ne p a hsw' (by rw [Fa.cStart, Fa.cEnd]; exact hne)
  have he' : 0 < a.maxError := by rw [Fa.maxError]; exact he
  obtain ⟨n, w, W⟩ := wedges a m he' hr hang
  obtain ⟨R, hR, -⟩ := outer_ok a m he' hr W
  have hrC : (a.radius : ℂ) ≠ 0 := by exact_mod_cast hr.ne'
  set u : ℂ := (p.coord a.pStart - p.coord a.pCenter) / a.radius with hu
  have hu' : p.coord a.pStart - p.coord a.pCenter = a.radius * u := by rw [hu]; field_simp
  have hu1 : ‖u‖ = 1 := by
    rw [hu, norm_div, Fa.cStart, hd1, Complex.norm_real, Real.norm_of_nonneg hr.le, div_self hr.ne']
  have hcp := fun i x hx => corner_point p a m (n := n) (w := w) (R := R) u Fa.normal Fa.hpStart Fa.hpCenter
    (by rw [Fa.hStart]; simp) (by rw [Fa.hEnd]; simp) hr hu' hu1 hsw' i x hx
  have hch := fun i x hx => corner_height p Fa m (R := R) W hang i x hx
  refine ⟨_, iterVertices_ok a m W hR, ?_⟩
  rw [lines_zip]
  set es := (List.range (inner m n)).map (a.vertex m w ((a.pStart - a.pCenter).normalized.mul R)) ++ [a.pEnd + a.hEnd]
    with hes
  set s0 := a.pCenter + (a.pStart - a.pCenter) + a.hStart with hs0
  have hlen : ((s0 :: es).zip es).length = inner m n + 1 := by
    rw [List.length_zip, hes]; simp
  have hle : es.length = inner m n + 1 := by rw [hes]; simp
  set H := p.height (g.arcEnd s incr) - p.height s with hH
  have hspan : cornerFraction m n ((s0 :: es).zip es).length - cornerFraction m n 0 = 1 := by
    rw [hlen]; unfold cornerFraction; rw [if_neg (by omega), if_neg (by omega), if_pos rfl, sub_zero]
  have key : ∀ i l, ((s0 :: es).zip es)[i]? = some l →
      helixLength (radii m a.radius e).1 a.angle H * (cornerFraction m n (i + 1) - cornerFraction m n i) ≤ lineLength l ∧
      lineLength l ≤ helixLength (radii m a.radius e).2 a.angle H * (cornerFraction m n (i + 1) - cornerFraction m n i) := by
    intro i l hl
    obtain ⟨hi, hl⟩ := List.getElem?_eq_some_iff.1 hl
    rw [hlen] at hi
    have h1 : i < (s0 :: es).length := by simp; omega
    have h2 : i < es.length := by omega
    rw [List.getElem_zip] at hl
    have hx1 : (s0 :: es)[i]? = some l.1 := by rw [← hl]; exact List.getElem?_eq_getElem h1
    have hx2 : (s0 :: es)[i + 1]? = some l.2 := by
      rw [← hl, List.getElem?_cons_succ]; exact List.getElem?_eq_getElem h2
    obtain ⟨b1, b2⟩ := chord_bounds a m he' hr W hR hu1 i (by omega)
    rw [← (hcp i _ hx1).1, ← (hcp (i + 1) _ hx2).1, corner_fraction a m R W, corner_fraction a m R W, sub_sub_sub_cancel_right,
      Fa.maxError, ← sub_mul] at b1 b2
    have hd : 0 < cornerFraction m n (i + 1) - cornerFraction m n i := by
      have := (corner_gap a m W i (by omega)).1
      linarith
    have hh : p.height l.2 - p.height l.1 = (cornerFraction m n (i + 1) - cornerFraction m n i) * H := by
      rw [hch i _ hx1, hch (i + 1) _ hx2]; ring
    rw [lineLength_sq p, hh]
    set D := cornerFraction m n (i + 1) - cornerFraction m n i with hD
    have hroot : ∀ k : ℝ, helixLength k a.angle H * D = √((k * (D * a.angle)) ^ 2 + (D * H) ^ 2) := by
      intro k
      unfold helixLength
      rw [← Real.sqrt_sq hd.le, ← Real.sqrt_mul' _ (sq_nonneg _), Real.sqrt_sq hd.le]
      congr 1
      ring
    rw [hroot, hroot]
    exact ⟨Real.sqrt_le_sqrt (by linarith), Real.sqrt_le_sqrt (by linarith)⟩
  constructor
  · have := sum_ge _ _ (cornerFraction m n) (fun i l hl => (key i l hl).1)
    rwa [hspan, mul_one] at this
  · have := sum_le _ _ (cornerFraction m n) (fun i l hl => (key i l hl).2)
    rwa [hspan, mul_one] at this

/-- **C98** (length, XY plane): the lines that `linearize_arc` gives are together as long as a helix around the centre of the
arc, with its sweep and its climb, on a radius that differs by at most the allowed error. -/
theorem C98_path (g : GCode) (start : Position) (plane : Option Cls)
    (hpl : plane = none ∨ plane = some .selectXYPlane) (m : ArcMethod) (arcIncr : Bool) (e : ℝ) (d : ℤ) (vs : List V3)
    (s : V3) (hs : start.vector = s) (hne : xy.coord s ≠ xy.coord (g.arcEnd s false))
    (h : linearizeArc g start plane (some m) false arcIncr e d = (vs, .done)) :
    ∃ (c : ℂ) (A : ℝ), turned c (xy.coord s) A 1 = xy.coord (g.arcEnd s false) ∧
      (g.cls.isSub .arcMoveCW = true → 0 < A ∧ A < 2 * Real.pi) ∧
      (g.cls.isSub .arcMoveCW = false → -(2 * Real.pi) < A ∧ A < 0) ∧
      (∀ x, g.num? 'R' = some x → ‖xy.coord s - c‖ = |(x : ℝ)| ∧ (0 < x → |A| ≤ Real.pi) ∧ (x < 0 → Real.pi ≤ |A|)) ∧
      (g.num? 'R' = none → MeanCentre (xy.coord s) (xy.coord (g.arcEnd s false)) (xy.coord (g.arcCenter s arcIncr)) c) ∧
      helixLength (radii m ‖xy.coord s - c‖ e).1 A ((g.arcEnd s false).z - s.z) ≤ pathLength (segments s vs) ∧
      pathLength (segments s vs) ≤ helixLength (radii m ‖xy.coord s - c‖ e).2 A ((g.arcEnd s false).z - s.z) := by
  obtain ⟨p, m', s', q, a, ls, D, rfl⟩ := linearize_done h
  obtain rfl : m = m' := Option.some.inj D.method
  obtain rfl : s = s' := by exact hs.symm.trans D.start
  have hp : p = xy := by
    have := D.plane
    rcases hpl with rfl | rfl <;> cases p <;> first | rfl | (exact absurd this (by decide))
  subst hp
  obtain rfl : Quat.one = q := Option.some.inj D.quat
  obtain ⟨h1, h2, h3, h4⟩ := C56_center xy g s _ false arcIncr e a D.ok hne
  obtain ⟨h5, h6, h7⟩ := C58_xy_partial g s false arcIncr e a D.ok
  have F := arcOf_ok xy g s _ false arcIncr e a D.ok
  have hang := angle_ne xy a (sweeps_xy g s false arcIncr e a D.ok) (by rw [F.cStart, F.cEnd]; exact hne)
  have hend : turned (xy.coord a.pCenter) (xy.coord s) a.angle 1 = xy.coord (g.arcEnd s false) := by
    unfold turned
    rw [one_mul, ← h5]; ring
  refine ⟨xy.coord a.pCenter, a.angle, hend, ?_, ?_, ?_, ?_, ?_⟩
  · intro hc; exact ⟨lt_of_le_of_ne (h6 hc).1 (Ne.symm hang), (h6 hc).2⟩
  · intro hc; exact ⟨(h7 hc).1, lt_of_le_of_ne (h7 hc).2 hang⟩
  · intro x hx
    have h8 := C58_half_partial g s false arcIncr e a D.ok hne x hx
    exact ⟨by rw [h3, C56_radius xy g s _ false arcIncr e a D.ok x hx], h8.1, h8.2⟩
  · intro hR; exact C121_mean xy g s _ false arcIncr e a D.ok hne hR
  · obtain ⟨ls', h9, h10⟩ := C98_length xy g s _ false arcIncr e a D.ok hne D.pos hend m
    obtain rfl : ls = ls' := by have := D.verts; rw [h9] at this; exact (Except.ok.inj this).symm
    obtain ⟨-, -, h11⟩ := done_shape D
    simp only [Bool.false_eq_true, if_false]
    rw [← h11, h3]
    exact h10

/-! ## Number -/

/-- The tolerance does not change the arc. -/
theorem arcOf_tolerance (p : Pl) (g : GCode) (s : V3) (q : Quat) (incr arcIncr : Bool) (e e' : ℝ) (a a' : Arc)
    (h : g.arcOf s p.normal q incr arcIncr e = .ok a) (h' : g.arcOf s p.normal q incr arcIncr e' = .ok a') :
    a.radius = a'.radius ∧ a.angle = a'.angle := by
  have F := arcOf_ok p g s q incr arcIncr e a h
  have F' := arcOf_ok p g s q incr arcIncr e' a' h'
  have hS : a.pStart = a'.pStart := by
    rw [Pl.ext_iff p]; exact ⟨by rw [F.cStart, F'.cStart], by rw [F.hpStart, F'.hpStart]⟩
  have hE : a.pEnd = a'.pEnd := by
    rw [Pl.ext_iff p]; exact ⟨by rw [F.cEnd, F'.cEnd], by rw [F.hpEnd, F'.hpEnd]⟩
  have hr : a.radius = a'.radius := by
    cases hR : g.num? 'R' with
    | some r => rw [(F.radiusR r hR).1, (F'.radiusR r hR).1]
    | none => rw [F.radiusC hR, F'.radiusC hR]
  have hC : a.pCenter = a'.pCenter := by
    rw [Pl.ext_iff p]
    refine ⟨?_, by rw [F.hpCenter, F'.hpCenter]⟩
    cases hR : g.num? 'R' with
    | some r => rw [F.centerR r hR, F'.centerR r hR, hr]
    | none =>
      have h1 := F.centerC hR
      have h2 := F'.centerC hR
      rw [hr] at h1
      rcases h1 with ⟨h1, k1⟩ | ⟨h1, k1⟩ <;> rcases h2 with ⟨h2, k2⟩ | ⟨h2, k2⟩
      · rw [h1, h2]
      · exact absurd k1 (not_lt.2 k2)
      · exact absurd k2 (not_lt.2 k1)
      · rw [h1, h2]
  exact ⟨hr, by rw [F.angle, F'.angle, hS, hE, hC]⟩

theorem wedgeCos_mono (m : ArcMethod) {r e e' : ℝ} (hr : 0 < r) (he : 0 < e) (h : e ≤ e') : wedgeCos m r e' ≤ wedgeCos m r e := by
  cases m <;> simp only [wedgeCos]
  · exact div_le_div_of_nonneg_right (by linarith) hr.le
  · exact div_le_div_of_nonneg_left hr.le (by linarith) (by linarith)
  · rw [div_le_div_iff₀ (by linarith) (by linarith)]
    nlinarith

/-- **C98** (number): a larger tolerance never gives more lines. -/
theorem C98_tolerance (p : Pl) (g : GCode) (s : V3) (q : Quat) (incr arcIncr : Bool) (e e' : ℝ) (a a' : Arc)
    (h : g.arcOf s p.normal q incr arcIncr e = .ok a) (h' : g.arcOf s p.normal q incr arcIncr e' = .ok a')
    (hne : p.coord s ≠ p.coord (g.arcEnd s incr)) (he : 0 < e) (hee : e ≤ e') (hang : a.angle ≠ 0) (m : ArcMethod) :
    ∃ ls ls', a.iterVertices m = .ok ls ∧ a'.iterVertices m = .ok ls' ∧ ls'.length ≤ ls.length := by
  have F := arcOf_ok p g s q incr arcIncr e a h
  have F' := arcOf_ok p g s q incr arcIncr e' a' h'
  obtain ⟨er, ea⟩ := arcOf_tolerance p g s q incr arcIncr e e' a a' h h'
  have hr := (C56_center p g s q incr arcIncr e a h hne).1
  obtain ⟨ls, -, n, W, h1, -, -, h2, h3, h4, -, h5⟩ := C55_chain p g s q incr arcIncr e a h hr he hang m
  obtain ⟨ls', -, n', W', h1', -, -, h2', h3', -, h4', h5'⟩ := C55_chain p g s q incr arcIncr e' a' h' (er ▸ hr) (he.trans_le hee)
    (ea ▸ hang) m
  refine ⟨ls, ls', h1, h1', ?_⟩
  have hW : W ≤ W' := by
    have k1 := maxWedge_ok a m (by rw [F.maxError]; exact he) hr
    have k2 := maxWedge_ok a' m (by rw [F'.maxError]; exact he.trans_le hee) (er ▸ hr)
    rw [h2, F.maxError] at k1
    rw [h2', F'.maxError, ← er] at k2
    cases k1
    cases k2
    have := Real.arccos_le_arccos (wedgeCos_mono m hr (lt_min he hr) (min_le_min_right a.radius hee))
    linarith
  have hn : n' ≤ n := h4' n (by
    rw [← ea]
    exact h4.trans (mul_le_mul_of_nonneg_right hW (Nat.cast_nonneg n)))
  rw [h5, h5']
  cases m <;> simp only <;> omega

/-- **C98** (number): the number of lines grows at most with the root of radius over tolerance. -/
theorem C98_count (p : Pl) (g : GCode) (s : V3) (q : Quat) (incr arcIncr : Bool) (e : ℝ) (a : Arc)
    (h : g.arcOf s p.normal q incr arcIncr e = .ok a) (hne : p.coord s ≠ p.coord (g.arcEnd s incr)) (he : 0 < e)
    (hang : a.angle ≠ 0) (m : ArcMethod) :
    ∃ ls, a.iterVertices m = .ok ls ∧ (ls.length : ℝ) < |a.angle| / 2 * √(a.radius / min e a.radius) + 2 := by
  have F := arcOf_ok p g s q incr arcIncr e a h
  have hr := (C56_center p g s q incr arcIncr e a h hne).1
  obtain ⟨ls, -, n, W, h1, -, -, h2, h3, -, h4, h5⟩ := C55_chain p g s q incr arcIncr e a h hr he hang m
  refine ⟨ls, h1, ?_⟩
  have hpos : 0 < min e a.radius := lt_min he hr
  have hle : min e a.radius ≤ a.radius := min_le_right _ _
  have k1 := maxWedge_ok a m (by rw [F.maxError]; exact he) hr
  rw [h2, F.maxError] at k1
  obtain ⟨c0, c1⟩ := wedgeCos_range m hpos hle
  set t := min e a.radius with ht
  have hc : wedgeCos m a.radius t ≤ 1 - t / a.radius / 2 := by
    cases m <;> simp only [wedgeCos]
    · rw [div_le_iff₀ hr]; field_simp; linarith
    · rw [div_le_iff₀ (by linarith)]; field_simp; nlinarith
    · rw [div_le_iff₀ (by linarith)]; field_simp; nlinarith
  set y := Real.arccos (wedgeCos m a.radius t) with hy
  have hyc : Real.cos y = wedgeCos m a.radius t := Real.cos_arccos (by linarith) c1.le
  have hyy := Real.one_sub_sq_div_two_le_cos (x := y)
  have hy0 : 0 ≤ y := Real.arccos_nonneg _
  have hsq : t / a.radius ≤ y ^ 2 := by linarith
  have hroot : √(t / a.radius) ≤ y := Real.sqrt_le_iff.2 ⟨hy0, hsq⟩
  have hWy : W = 2 * y := Except.ok.inj k1
  have hrp : 0 < √(t / a.radius) := Real.sqrt_pos.2 (div_pos hpos hr)
  have hn : (n : ℝ) < |a.angle| / W + 1 := by
    by_contra hcon
    push Not at hcon
    have hn1 : 1 ≤ n := by
      have h0 : 0 < |a.angle| / W := div_pos (abs_pos.2 hang) h3
      have : (0 : ℝ) < n := by linarith
      exact_mod_cast this
    have := h4 (n - 1) (by
      rw [Nat.cast_sub hn1]
      push_cast
      rw [mul_comm, ← div_le_iff₀ h3]
      linarith)
    omega
  have hdiv : |a.angle| / W ≤ |a.angle| / 2 * √(a.radius / t) := by
    rw [hWy, ← div_div, ← inv_div t, Real.sqrt_inv, ← div_eq_mul_inv]
    exact div_le_div_of_nonneg_left (by positivity) hrp hroot
  have hl : (ls.length : ℝ) ≤ n + 1 := by
    rw [h5]
    cases m <;> push_cast <;> linarith
  linarith

theorem roundedDeltas_length (d : ℤ) (vs : List V3) : ∀ s, (roundedDeltas d s vs).length = vs.length := by
  induction vs with
  | nil => intro s; rfl
  | cons v vs ih => intro s; simp [roundedDeltas, ih]

/-- **C98** (number, XY plane): with a larger tolerance `linearize_arc` never gives more moves, in absolute or incremental
distance mode. -/
theorem C98_fewer (g : GCode) (start : Position) (plane : Option Cls)
    (hpl : plane = none ∨ plane = some .selectXYPlane) (m : ArcMethod) (incr arcIncr : Bool) (e e' : ℝ) (d d' : ℤ)
    (vs vs' : List V3) (hne : xy.coord start.vector ≠ xy.coord (g.arcEnd start.vector incr)) (hee : e ≤ e')
    (h : linearizeArc g start plane (some m) incr arcIncr e d = (vs, .done))
    (h' : linearizeArc g start plane (some m) incr arcIncr e' d' = (vs', .done)) : vs'.length ≤ vs.length := by
  obtain ⟨p, m₁, s, q, a, ls, D, rfl⟩ := linearize_done h
  obtain ⟨p', m₂, s', q', a', ls', D', rfl⟩ := linearize_done h'
  obtain rfl : m = m₁ := Option.some.inj D.method
  obtain rfl : m = m₂ := Option.some.inj D'.method
  obtain rfl : s = s' := by rw [← D.start, ← D'.start]
  have hp : ∀ p : Pl, plane.getD .selectXYPlane = p.cls → p = xy := by
    intro p this
    rcases hpl with rfl | rfl <;> cases p <;> first | rfl | (exact absurd this (by decide))
  obtain rfl := hp p D.plane
  obtain rfl := hp p' D'.plane
  obtain rfl : Quat.one = q := Option.some.inj D.quat
  obtain rfl : Quat.one = q' := Option.some.inj D'.quat
  rw [D.start] at hne
  have F := arcOf_ok xy _ _ _ _ _ _ a D.ok
  have hang := angle_ne xy a (sweeps_xy _ _ _ _ _ a D.ok) (by rw [F.cStart, F.cEnd]; exact hne)
  obtain ⟨l, l', h1, h2, h3⟩ := C98_tolerance xy _ _ _ _ _ _ _ a a' D.ok D'.ok hne D.pos hee hang m
  have e1 : ls = l := Except.ok.inj (D.verts.symm.trans h1)
  have e2 : ls' = l' := Except.ok.inj (D'.verts.symm.trans h2)
  subst e1 e2
  cases incr <;> simpa [roundedDeltas_length] using h3

/-! ## Instances -/

/-- The quarter of the unit circle: the lines are together at least as long as the arc with `mid`, and at most half the
tolerance per unit of angle longer. -/
example : ∃ vs, linearizeArc sampleArc (at3 1 0 0) none (some .mid) false true (1 / 100) 3 = (vs, .done) ∧
    Real.pi / 2 ≤ pathLength (segments ⟨(1 : ℚ), (0 : ℚ), (0 : ℚ)⟩ vs) ∧
    pathLength (segments ⟨(1 : ℚ), (0 : ℚ), (0 : ℚ)⟩ vs) ≤ (1 + 1 / 200) * (Real.pi / 2) := by
  have hs := at3_vector 1 0 0
  have hE : sampleArc.arcEnd ⟨(1 : ℚ), (0 : ℚ), (0 : ℚ)⟩ false = ⟨0, 1, 0⟩ := by
    simp [GCode.arcEnd, sampleArc, GCode.num?, GCode.param, Word.num]
  have hne : xy.coord ⟨(1 : ℚ), (0 : ℚ), (0 : ℚ)⟩ ≠ xy.coord (sampleArc.arcEnd ⟨(1 : ℚ), (0 : ℚ), (0 : ℚ)⟩ false) := by
    rw [hE]; intro h; have := congrArg Complex.re h; simp [Pl.coord] at this
  have hC : xy.coord (sampleArc.arcCenter ⟨(1 : ℚ), (0 : ℚ), (0 : ℚ)⟩ true) = 0 := by
    apply Complex.ext <;>
      simp [GCode.arcCenter, sampleArc, GCode.num?, GCode.param, Word.num, Pl.coord, add_mk]
  have hS : xy.coord ⟨(1 : ℚ), (0 : ℚ), (0 : ℚ)⟩ = 1 := by
    apply Complex.ext <;> simp [Pl.coord]
  have hI : xy.coord ⟨0, 1, 0⟩ = Complex.I := rfl
  have hR : sampleArc.num? 'R' = none := by decide +kernel
  obtain ⟨vs, h⟩ := (C62_done sampleArc _ .mid false true (1 / 100) 3 _ hs hne).2
    ⟨by decide +kernel, by norm_num, by decide +kernel, fun r hr => by rw [hR] at hr; cases hr⟩
  refine ⟨vs, h, ?_⟩
  obtain ⟨c, A, h1, -, h2, -, h3, h4, h5⟩ := C98_path _ _ _ (.inr rfl) _ _ _ _ _ _ hs hne h
  have hc := (h3 hR).fits (by rw [hE, hC, hS, hI]; simp)
  rw [hC] at hc
  subst hc
  obtain ⟨hA0, hA1⟩ := h2 (by decide)
  rw [hS, hE, hI] at h1
  have hA : A = -(Real.pi / 2) := by
    have h5 : cw A = Complex.I := by
      rw [← h1]; unfold turned cw; simp
    rw [cw_eq] at h5
    have h6 := congrArg Complex.im h5
    simp only [Complex.I_im] at h6
    have h7 : Real.cos (A + Real.pi / 2) = 1 := by rw [Real.cos_add_pi_div_two]; exact h6
    have := (Real.cos_eq_one_iff_of_lt_of_lt (by linarith [Real.pi_pos]) (by linarith [Real.pi_pos])).1 h7
    linarith
  have hlen : ∀ k : ℝ, 0 ≤ k → helixLength k A ((0 : ℝ) - ((0 : ℚ) : ℝ)) = k * (Real.pi / 2) := by
    intro k hk
    unfold helixLength
    rw [hA, Rat.cast_zero, sub_zero, zero_pow two_ne_zero, add_zero, mul_neg, neg_sq, Real.sqrt_sq (by positivity)]
  rw [hS, sub_zero, norm_one, hE] at h4 h5
  simp only [radii] at h4 h5
  rw [hlen _ (by norm_num)] at h4 h5
  constructor
  · linarith
  · rw [show (1 : ℝ) + 1 / 200 = 1 + 1 / 100 / 2 by norm_num]; exact h5

example (vs vs' : List V3) (h : linearizeArc sampleArc (at3 1 0 0) none (some .mid) false true (1 / 100) 3 = (vs, .done))
    (h' : linearizeArc sampleArc (at3 1 0 0) none (some .mid) false true (1 / 10) 3 = (vs', .done)) :
    vs'.length ≤ vs.length := by
  have hE : sampleArc.arcEnd ⟨(1 : ℚ), (0 : ℚ), (0 : ℚ)⟩ false = ⟨0, 1, 0⟩ := by
    simp [GCode.arcEnd, sampleArc, GCode.num?, GCode.param, Word.num]
  refine C98_fewer _ _ _ (.inl rfl) _ _ _ _ _ _ _ _ _ ?_ (by norm_num) h h'
  rw [at3_vector 1 0 0, hE]; intro h; have := congrArg Complex.re h; simp [Pl.coord] at this

/-- With a tolerance of 1/100 or 1/10: never more lines with the latter, and in both cases few. -/
example (a a' : Arc) (h : sampleArc.arcOf ⟨1, 0, 0⟩ xy.normal Quat.one false true (1 / 100) = .ok a)
    (h' : sampleArc.arcOf ⟨1, 0, 0⟩ xy.normal Quat.one false true (1 / 10) = .ok a') :
    ∃ ls ls', a.iterVertices .inside = .ok ls ∧ a'.iterVertices .inside = .ok ls' ∧ ls'.length ≤ ls.length := by
  have hE : sampleArc.arcEnd ⟨1, 0, 0⟩ false = ⟨0, 1, 0⟩ := by
    simp [GCode.arcEnd, sampleArc, GCode.num?, GCode.param, Word.num]
  have hne : xy.coord ⟨1, 0, 0⟩ ≠ xy.coord (sampleArc.arcEnd ⟨1, 0, 0⟩ false) := by
    rw [hE]; intro h; have := congrArg Complex.re h; simp [Pl.coord] at this
  have F := arcOf_ok xy _ _ _ _ _ _ a h
  have hang := angle_ne xy a (sweeps_xy _ _ false true _ a h) (by rw [F.cStart, F.cEnd]; exact hne)
  exact C98_tolerance xy _ _ _ _ _ _ _ a a' h h' hne (by norm_num) (by norm_num) hang .inside

example : ∃ a, sampleArc.arcOf ⟨1, 0, 0⟩ xy.normal Quat.one false true (1 / 100) = .ok a ∧
    ∃ ls, a.iterVertices .mid = .ok ls ∧ ls.length ≤ 41 := by
  have hE : sampleArc.arcEnd ⟨1, 0, 0⟩ false = ⟨0, 1, 0⟩ := by
    simp [GCode.arcEnd, sampleArc, GCode.num?, GCode.param, Word.num]
  have hne : xy.coord ⟨1, 0, 0⟩ ≠ xy.coord (sampleArc.arcEnd ⟨1, 0, 0⟩ false) := by
    rw [hE]; intro h; have := congrArg Complex.re h; simp [Pl.coord] at this
  have hR : sampleArc.num? 'R' = none := by decide +kernel
  obtain ⟨a, h⟩ := (C62_reach xy sampleArc ⟨1, 0, 0⟩ Quat.one false true (1 / 100)).2
    ⟨by decide +kernel, fun r hr => by rw [hR] at hr; cases hr⟩
  have F := arcOf_ok xy _ _ _ _ _ _ a h
  have hang := angle_ne xy a (sweeps_xy _ _ false true _ a h) (by rw [F.cStart, F.cEnd]; exact hne)
  have hrange := (angle_range xy _ _ _ _ _ _ a F).2 (by decide)
  have hC : xy.coord (sampleArc.arcCenter ⟨1, 0, 0⟩ true) = 0 := by
    apply Complex.ext <;>
      simp [GCode.arcCenter, sampleArc, GCode.num?, GCode.param, Word.num, Pl.coord, add_mk]
  have hS : xy.coord ⟨1, 0, 0⟩ = 1 := rfl
  have hI : xy.coord ⟨0, 1, 0⟩ = Complex.I := rfl
  have hr : a.radius = 1 := by
    rw [F.radiusC hR, hC, hE, hS, hI]; simp
  obtain ⟨ls, h1, h2⟩ := C98_count xy _ _ _ _ _ _ a h hne (by norm_num) hang .mid
  refine ⟨a, h, ls, h1, ?_⟩
  rw [hr, show min (1 / 100 : ℝ) 1 = 1 / 100 by norm_num, show (1 : ℝ) / (1 / 100) = 10 ^ 2 by norm_num,
    Real.sqrt_sq (by norm_num)] at h2
  have h3 : |a.angle| < 2 * Real.pi := by rw [abs_lt]; constructor <;> linarith [Real.pi_pos]
  have h4 := Real.pi_le_four
  have h5 : (ls.length : ℝ) < 42 := by linarith
  have : ls.length < 42 := by exact_mod_cast h5
  omega

/-- `G3 X0 Y1 Z5 I-1`. -/
def sampleHelix : GCode := ⟨.arcMoveCCW, ⟨'G', .num 3⟩, [⟨'X', .num 0⟩, ⟨'Y', .num 1⟩, ⟨'Z', .num 5⟩, ⟨'I', .num (-1)⟩], false⟩

/-- A helix of a quarter turn that climbs by 5, on a radius between 9/10 and 1. -/
example : ∃ a, sampleHelix.arcOf ⟨1, 0, 0⟩ xy.normal Quat.one false true (1 / 10) = .ok a ∧
    ∃ ls, a.iterVertices .inside = .ok ls ∧ 5 < pathLength ls := by
  have hE : sampleHelix.arcEnd ⟨1, 0, 0⟩ false = ⟨0, 1, 5⟩ := by
    simp [GCode.arcEnd, sampleHelix, GCode.num?, GCode.param, Word.num]
  have hne : xy.coord ⟨1, 0, 0⟩ ≠ xy.coord (sampleHelix.arcEnd ⟨1, 0, 0⟩ false) := by
    rw [hE]; intro h; have := congrArg Complex.re h; simp [Pl.coord] at this
  have hR : sampleHelix.num? 'R' = none := by decide +kernel
  obtain ⟨a, h⟩ := (C62_reach xy sampleHelix ⟨1, 0, 0⟩ Quat.one false true (1 / 10)).2
    ⟨by decide +kernel, fun r hr => by rw [hR] at hr; cases hr⟩
  have F := arcOf_ok xy _ _ _ _ _ _ a h
  have hang := angle_ne xy a (sweeps_xy _ _ false true _ a h) (by rw [F.cStart, F.cEnd]; exact hne)
  have hC : xy.coord (sampleHelix.arcCenter ⟨1, 0, 0⟩ true) = 0 := by
    apply Complex.ext <;>
      simp [GCode.arcCenter, sampleHelix, GCode.num?, GCode.param, Word.num, Pl.coord, add_mk]
  have hS : xy.coord ⟨1, 0, 0⟩ = 1 := rfl
  have hI : xy.coord ⟨0, 1, 5⟩ = Complex.I := rfl
  have hr : a.radius = 1 := by
    rw [F.radiusC hR, hC, hE, hS, hI]; simp
  have hend : turned (xy.coord a.pCenter) (xy.coord ⟨1, 0, 0⟩) a.angle 1 = xy.coord (sampleHelix.arcEnd ⟨1, 0, 0⟩ false) := by
    unfold turned
    rw [one_mul, ← (C58_xy_partial _ _ _ _ _ a h).1]; ring
  obtain ⟨ls, h1, h2, -⟩ := C98_length xy _ _ _ _ _ _ a h hne (by norm_num) hend .inside
  refine ⟨a, h, ls, h1, lt_of_lt_of_le ?_ h2⟩
  rw [hE, hr]
  simp only [radii]
  have e1 : max (0 : ℝ) (1 - 1 / 10) = 9 / 10 := by norm_num
  have e2 : xy.height ⟨0, 1, 5⟩ - xy.height ⟨1, 0, 0⟩ = 5 := by show (5 : ℝ) - 0 = 5; norm_num
  rw [e1, e2]
  unfold helixLength
  refine Real.lt_sqrt_of_sq_lt ?_
  have := sq_pos_of_ne_zero hang
  nlinarith

end Pygcode
