import Verif.Props.NormArcProgram

/-!
# There is one helix that an arc asks for (C116)
-/

namespace Pygcode
open Props Machine Spec Pl

theorem exp_chord (A : ℝ) : ‖(1 - Complex.exp (-((A : ℝ) * Complex.I)) : ℂ)‖ = 2 * |Real.sin (A / 2)| := by
  have h : ‖(1 - Complex.exp (-((A : ℝ) * Complex.I)) : ℂ)‖ ^ 2 = (2 * |Real.sin (A / 2)|) ^ 2 := by
    rw [show (-((A : ℝ) * Complex.I) : ℂ) = ((-A : ℝ) : ℂ) * Complex.I by push_cast; ring, Complex.exp_mul_I, ← Complex.ofReal_cos,
      ← Complex.ofReal_sin, Complex.sq_norm, Complex.normSq_apply]
    simp only [Complex.sub_re, Complex.one_re, Complex.add_re, Complex.ofReal_re, Complex.mul_re, Complex.I_re, mul_zero, Complex.ofReal_im,
      Complex.I_im, Complex.sub_im, Complex.one_im, Complex.add_im, Complex.mul_im, Real.cos_neg, Real.sin_neg]
    have hc : Real.cos A = 1 - 2 * Real.sin (A / 2) ^ 2 := by
      have := Real.cos_sq' (A / 2)
      have h2 := Real.cos_two_mul (A / 2)
      rw [mul_div_cancel₀ A (two_ne_zero)] at h2
      rw [h2, this]; ring
    have hs := Real.sin_sq_add_cos_sq A
    rw [mul_pow, sq_abs]
    nlinarith
  exact (sq_eq_sq₀ (norm_nonneg _) (by positivity)).1 h

/-- A turn takes the start to the end: what this says of the centre. -/
theorem turned_one {c S E : ℂ} {A : ℝ} (h : turned c S A 1 = E) :
    (1 - Complex.exp (-((A : ℝ) * Complex.I))) * (S - c) = S - E := by
  unfold turned at h
  rw [one_mul] at h
  rw [← h]; ring

/-- The size of a turn. -/
theorem turn_size {c S E : ℂ} {A r : ℝ} (h : turned c S A 1 = E) (hr : ‖S - c‖ = r) : 2 * |Real.sin (A / 2)| * r = ‖S - E‖ := by
  rw [← turned_one h, norm_mul, exp_chord, hr]

/-- Within one turn and on the same side of a half turn, the sine of half the angle determines it. -/
theorem half_sin_inj {A B : ℝ} (hA : 0 < A ∧ A < 2 * Real.pi) (hB : 0 < B ∧ B < 2 * Real.pi)
    (h : (A ≤ Real.pi ∧ B ≤ Real.pi) ∨ (Real.pi ≤ A ∧ Real.pi ≤ B)) (hs : |Real.sin (A / 2)| = |Real.sin (B / 2)|) : A = B := by
  rw [abs_of_pos (Real.sin_pos_of_pos_of_lt_pi (by linarith) (by linarith)),
    abs_of_pos (Real.sin_pos_of_pos_of_lt_pi (by linarith) (by linarith))] at hs
  rcases h with ⟨h1, h2⟩ | ⟨h1, h2⟩
  · have := Real.injOn_sin ⟨by linarith [Real.pi_pos], by linarith⟩ ⟨by linarith [Real.pi_pos], by linarith⟩ hs
    linarith
  · rw [← Real.sin_pi_sub, ← Real.sin_pi_sub (B / 2)] at hs
    have := Real.injOn_sin ⟨by linarith [Real.pi_pos], by linarith⟩ ⟨by linarith [Real.pi_pos], by linarith⟩ hs
    linarith

theorem exp_ne_one {A : ℝ} (h0 : 0 < |A|) (h1 : |A| < 2 * Real.pi) : (1 - Complex.exp (-((A : ℝ) * Complex.I)) : ℂ) ≠ 0 := by
  intro h
  have := exp_chord A
  rw [h, norm_zero] at this
  have hs : |Real.sin (A / 2)| = Real.sin (|A| / 2) := by
    rcases abs_cases A with ⟨e, h2⟩ | ⟨e, h2⟩
    · rw [e] at h1 ⊢
      exact abs_of_nonneg (Real.sin_nonneg_of_nonneg_of_le_pi (by linarith) (by linarith))
    · rw [e] at h1 ⊢
      rw [neg_div, Real.sin_neg, abs_of_nonpos]
      exact Real.sin_nonpos_of_nonpos_of_neg_pi_le (by linarith) (by linarith)
  rw [hs] at this
  have := Real.sin_pos_of_pos_of_lt_pi (x := |A| / 2) (by linarith) (by linarith)
  linarith

theorem centre_of_turn {c c' S E : ℂ} {A : ℝ} (h0 : 0 < |A|) (h1 : |A| < 2 * Real.pi) (h : turned c S A 1 = E) (h' : turned c' S A 1 = E) :
    c = c' := by
  have e := (turned_one h).trans (turned_one h').symm
  have := mul_left_cancel₀ (exp_ne_one h0 h1) e
  linear_combination -this

theorem sin_half_abs (A : ℝ) : |Real.sin (|A| / 2)| = |Real.sin (A / 2)| := by
  rcases abs_cases A with ⟨e, -⟩ | ⟨e, -⟩ <;> rw [e]
  rw [neg_div, Real.sin_neg, _root_.abs_neg]

/-- **C116**: the helix that an arc asks for is the only one: two that fit have the same centre and turn (unless the centre that I
and J name is on the line through both ends, but not between them in the middle). -/
theorem C116_unique {m : Machine} {g : GCode} {s : V3} (hne : xy.coord s ≠ arcEndOf m g s) {c c' : ℂ} {A A' : ℝ}
    (h : AsksFor m g s c A) (h' : AsksFor m g s c' A')
    (hfit : g.num? 'R' = none → OneCentre (xy.coord s) (arcEndOf m g s) (arcCentreOf m g s)) : c = c' ∧ A = A' := by
  obtain ⟨a1, a2, a3, a4, a5⟩ := h
  obtain ⟨b1, b2, b3, b4, b5⟩ := h'
  -- both turn the same way, by less than a full turn
  have hA : 0 < |A| ∧ |A| < 2 * Real.pi ∧ 0 < |A'| ∧ |A'| < 2 * Real.pi ∧ (|A| = |A'| → A = A') ∧ (0 < A ∧ 0 < A' ∨ A < 0 ∧ A' < 0) := by
    cases hcw : g.cls.isSub .arcMoveCW with
    | true =>
      obtain ⟨p1, p2⟩ := a2 hcw
      obtain ⟨q1, q2⟩ := b2 hcw
      rw [abs_of_pos p1, abs_of_pos q1]
      exact ⟨p1, p2, q1, q2, fun h => h, .inl ⟨p1, q1⟩⟩
    | false =>
      obtain ⟨p1, p2⟩ := a3 hcw
      obtain ⟨q1, q2⟩ := b3 hcw
      rw [abs_of_neg p2, abs_of_neg q2]
      exact ⟨by linarith, by linarith, by linarith, by linarith, fun h => by linarith, .inr ⟨p2, q2⟩⟩
  obtain ⟨p1, p2, q1, q2, hinj, hside⟩ := hA
  have hSE : 0 < ‖xy.coord s - arcEndOf m g s‖ := norm_pos_iff.2 (sub_ne_zero.2 hne)
  have key : A = A' := by
    cases hR : g.num? 'R' with
    | some y =>
      obtain ⟨r1, r2, r3⟩ := a4 y hR
      obtain ⟨t1, t2, t3⟩ := b4 y hR
      have s1 := turn_size a1 r1
      have s2 := turn_size b1 t1
      have hy : 0 < |(y : ℝ)| := by
        rcases (abs_nonneg (y : ℝ)).lt_or_eq with h | h
        · exact h
        · rw [← h, mul_zero] at s1; rw [← s1] at hSE; exact absurd hSE (lt_irrefl _)
      apply hinj
      apply half_sin_inj ⟨p1, p2⟩ ⟨q1, q2⟩
      · rcases lt_trichotomy y 0 with h | h | h
        · exact .inr ⟨r3 h, t3 h⟩
        · rw [h] at hy; simp at hy
        · exact .inl ⟨r2 h, t2 h⟩
      · rw [sin_half_abs, sin_half_abs]
        have := s1.trans s2.symm
        have := mul_right_cancel₀ hy.ne' this
        linarith
    | none =>
      obtain rfl : c = c' := by
        exact mean_unique hne (hfit hR) (a5 hR) (b5 hR)
      have hS : xy.coord s - c ≠ 0 := by
        intro h0
        have := turned_one a1
        rw [h0, mul_zero] at this
        exact hne (sub_eq_zero.1 this.symm)
      have hexp := mul_right_cancel₀ hS ((turned_one a1).trans (turned_one b1).symm)
      have hexp : Complex.exp (-((A : ℝ) * Complex.I)) = Complex.exp (-((A' : ℝ) * Complex.I)) := by linear_combination -hexp
      obtain ⟨n, hn⟩ := Complex.exp_eq_exp_iff_exists_int.1 hexp
      have hn' : -A = -A' + n * (2 * Real.pi) := by
        have := congrArg Complex.im hn
        simpa using this
      have hlt : |(n : ℝ) * (2 * Real.pi)| < 2 * Real.pi := by
        rw [show (n : ℝ) * (2 * Real.pi) = A' - A by linarith]
        rcases hside with ⟨u, v⟩ | ⟨u, v⟩
        · rw [abs_of_pos u] at p2; rw [abs_of_pos v] at q2; rw [abs_lt]; constructor <;> linarith
        · rw [abs_of_neg u] at p2; rw [abs_of_neg v] at q2; rw [abs_lt]; constructor <;> linarith
      rw [abs_mul, abs_of_pos (by linarith [Real.pi_pos] : 0 < 2 * Real.pi)] at hlt
      have hn0 : |(n : ℝ)| < 1 := by
        by_contra hc
        rw [not_lt] at hc
        nlinarith [Real.pi_pos]
      have : |n| < 1 := by exact_mod_cast hn0
      have : n = 0 := by rwa [Int.abs_lt_one_iff] at this
      rw [this] at hn'
      simp at hn'
      exact hn'
  subst key
  exact ⟨centre_of_turn p1 p2 a1 b1, rfl⟩

/-- `G3 X1 Y0 J1.5` -/
def unevenArc : GCode := ⟨.arcMoveCCW, ⟨'G', .num 3⟩, [⟨'X', .num 1⟩, ⟨'Y', .num 0⟩, ⟨'J', .num (3 / 2)⟩], false⟩

/-- From (-1, 0) to (1, 0), around (-1, 3/2), which is 3/2 from the one and 5/2 from the other: the arc asks for a sixth of a turn
to the left around (0, √3), which is 2 from both. -/
example (c : ℂ) (A : ℝ) : AsksFor newNull unevenArc ⟨-1, 0, 0⟩ c A ↔ c = √3 * Complex.I ∧ A = -(Real.pi / 3) := by
  have hmode : (newNull.mode 3).map GCode.cls ≠ some .incrementalDistanceMode ∧
      (newNull.mode 4).map GCode.cls ≠ some .absoluteArcDistanceMode := by decide +kernel
  have e1 : arcEndOf newNull unevenArc ⟨-1, 0, 0⟩ = 1 := by
    unfold arcEndOf
    rw [if_neg hmode.1]
    apply Complex.ext <;> simp [unevenArc, GCode.num?, GCode.param, Word.num]
  have e2 : xy.coord ⟨-1, 0, 0⟩ = -1 := by apply Complex.ext <;> simp [Pl.coord]
  have e3 : arcCentreOf newNull unevenArc ⟨-1, 0, 0⟩ = ⟨-1, 3 / 2⟩ := by
    unfold arcCentreOf
    rw [if_neg hmode.2]
    apply Complex.ext <;> simp [unevenArc, GCode.num?, GCode.param, Word.num]
  have hR : unevenArc.num? 'R' = none := by decide +kernel
  have hne : xy.coord ⟨-1, 0, 0⟩ ≠ arcEndOf newNull unevenArc ⟨-1, 0, 0⟩ := by
    rw [e1, e2]; intro h; have := congrArg Complex.re h; norm_num at this
  have h3 : √3 ^ 2 = (3 : ℝ) := Real.sq_sqrt (by norm_num)
  have h30 : 0 ≤ √3 := Real.sqrt_nonneg 3
  have nrm : ∀ (z : ℂ) (r : ℝ), 0 ≤ r → z.re ^ 2 + z.im ^ 2 = r ^ 2 → ‖z‖ = r := by
    intro z r hr h
    refine (sq_eq_sq₀ (norm_nonneg _) hr).1 ?_
    rw [Complex.sq_norm, Complex.normSq_apply]
    linarith
  have n1 : ‖(-1 : ℂ) - ⟨-1, 3 / 2⟩‖ = 3 / 2 := nrm _ _ (by norm_num) (by norm_num)
  have n2 : ‖(1 : ℂ) - ⟨-1, 3 / 2⟩‖ = 5 / 2 := nrm _ _ (by norm_num) (by norm_num)
  have hfit : AsksFor newNull unevenArc ⟨-1, 0, 0⟩ (√3 * Complex.I) (-(Real.pi / 3)) := by
    refine ⟨?_, fun h => absurd h (by decide), fun _ => ⟨by linarith [Real.pi_pos], by linarith [Real.pi_pos]⟩, fun y h => ?_, fun _ => ?_⟩
    · rw [e1, e2]
      unfold turned
      rw [one_mul, show (-(((-(Real.pi / 3) : ℝ) : ℂ) * Complex.I)) = ((Real.pi / 3 : ℝ) : ℂ) * Complex.I by push_cast; ring,
        Complex.exp_mul_I, ← Complex.ofReal_cos, ← Complex.ofReal_sin, Real.cos_pi_div_three, Real.sin_pi_div_three]
      apply Complex.ext <;> simp <;> nlinarith
    · rw [hR] at h; cases h
    · rw [e1, e2, e3]
      unfold MeanCentre
      rw [n1, n2]
      refine ⟨nrm _ _ (by norm_num) ?_, nrm _ _ (by norm_num) ?_, fun z z1 z2 => ?_⟩
      · simp; nlinarith
      · simp; nlinarith
      · have q1 : ‖(-1 : ℂ) - z‖ ^ 2 = 4 := by rw [z1]; norm_num
        have q2 : ‖(1 : ℂ) - z‖ ^ 2 = 4 := by rw [z2]; norm_num
        rw [Complex.sq_norm, Complex.normSq_apply] at q1 q2
        simp at q1 q2
        have hx : z.re = 0 := by nlinarith
        have hy : z.im ^ 2 = √3 ^ 2 := by rw [hx] at q1; nlinarith
        have hle : z.im ≤ √3 := abs_le_of_sq_le_sq' hy.le h30 |>.2
        refine abs_le_of_sq_le_sq' ?_ (norm_nonneg _) |>.2
        rw [Complex.sq_norm, Complex.sq_norm, Complex.normSq_apply, Complex.normSq_apply]
        simp
        rw [hx]
        nlinarith
  constructor
  · intro h
    refine C116_unique hne h hfit fun _ t ht => ?_
    rw [e1, e2, e3] at ht
    have := congrArg Complex.im ht
    norm_num at this
  · rintro ⟨rfl, rfl⟩
    exact hfit

end Pygcode
