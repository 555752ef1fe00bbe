import Verif.Props.ArcHelix
import Verif.Props.ArcAccept

/-!
# The centre used for an arc whose I, J, K do not fit its ends (C121)
-/

namespace Pygcode
open Props Machine Spec Pl

/-! ## Specification -/

/-- The centre that the words I and J name, in the XY plane: added to the start `s` if `rel`. -/
noncomputable def namedCentre (g : GCode) (s : V3) (rel : Bool) : ℂ :=
  ⟨(if rel then s.x else 0) + ((g.num? 'I').getD 0 : ℚ), (if rel then s.y else 0) + ((g.num? 'J').getD 0 : ℚ)⟩

/-! ## Proof -/

/-- With the ends at `-h` and `h` on the real axis and the named centre at `d + e i`. -/
theorem centre_real {h d e r₁ r₂ f : ℝ} (h1 : 0 ≤ r₁) (h2 : 0 ≤ r₂) (e1 : r₁ ^ 2 = (h + d) ^ 2 + e ^ 2)
    (e2 : r₂ ^ 2 = (h - d) ^ 2 + e ^ 2) (hf : 0 ≤ f) (ef : f ^ 2 = ((r₁ + r₂) / 2) ^ 2 - h ^ 2) : (|e| - f) ^ 2 ≤ d ^ 2 := by
  have hd : 4 * h * d = (r₁ - r₂) * (r₁ + r₂) := by nlinarith
  have hfe : e ^ 2 - f ^ 2 = ((r₁ - r₂) / 2) ^ 2 - d ^ 2 := by nlinarith
  have ha := abs_nonneg e
  have hsq := sq_abs e
  have hΔ : ((r₁ - r₂) / 2) ^ 2 ≤ d ^ 2 := by
    rw [← sub_nonneg]
    by_contra hc
    rw [not_le] at hc
    -- then `e² > f²`, so that `r ≥ h` makes `d` large
    by_cases hr : r₁ + r₂ = 0
    · have z1 : r₁ = 0 := by linarith
      have z2 : r₂ = 0 := by linarith
      rw [z1, z2] at hc
      nlinarith [sq_nonneg d]
    · have hr' : 0 < r₁ + r₂ := lt_of_le_of_ne (by linarith) (Ne.symm hr)
      have hle : 4 * h ^ 2 ≤ (r₁ + r₂) ^ 2 := by nlinarith [sq_nonneg f]
      have hsqd : 16 * h ^ 2 * d ^ 2 = (r₁ - r₂) ^ 2 * (r₁ + r₂) ^ 2 := by
        have : (4 * h * d) ^ 2 = ((r₁ - r₂) * (r₁ + r₂)) ^ 2 := by rw [hd]
        linear_combination this
      have : (r₁ - r₂) ^ 2 * (r₁ + r₂) ^ 2 ≤ 4 * (r₁ + r₂) ^ 2 * d ^ 2 := by nlinarith [sq_nonneg d]
      have h3 : (r₁ - r₂) ^ 2 ≤ 4 * d ^ 2 := by
        have hp : 0 < (r₁ + r₂) ^ 2 := by positivity
        by_contra hcc
        rw [not_le] at hcc
        nlinarith
      nlinarith
  rcases le_total |e| f with hef | hef
  · nlinarith [mul_nonneg ha (sub_nonneg.2 hef), sq_nonneg (r₁ - r₂)]
  · nlinarith [mul_nonneg hf (sub_nonneg.2 hef), sq_nonneg (r₁ - r₂)]

/-- The better of the two centres is within √2 of the best place of all those equally far from both ends. -/
theorem centre_near {S E C c : ℂ} (h : S ≠ E) {r : ℝ} (hr : r = (‖S - C‖ + ‖E - C‖) / 2)
    (hl : ‖c - C‖ ≤ ‖leftCenter S E r - C‖) (hrr : ‖c - C‖ ≤ ‖rightCenter S E r - C‖) :
    ∃ d : ℝ, ‖c - C‖ ≤ √2 * |d| ∧ |d| * ‖E - S‖ = |‖S - C‖ - ‖E - C‖| * r ∧ ∀ z : ℂ, ‖S - z‖ = ‖E - z‖ → |d| ≤ ‖z - C‖ := by
  obtain ⟨d, e, hfr⟩ := frame_exists h C
  have hu := unit_norm h
  have hk := half_ne h
  have hkn : 0 < ‖halfSpan S E‖ := norm_pos_iff.2 hk
  have hn : (‖halfSpan S E‖ : ℂ) ≠ 0 := by exact_mod_cast hkn.ne'
  set H := ‖halfSpan S E‖ with hH
  set u := halfSpan S E / ((H : ℝ) : ℂ) with hud
  have huk : u * (H : ℂ) = halfSpan S E := by rw [hud, div_mul_cancel₀ _ hn]
  have nrm : ∀ x y : ℝ, ‖u * ((x : ℂ) + y * Complex.I)‖ ^ 2 = x ^ 2 + y ^ 2 := by
    intro x y; rw [norm_mul, hu, one_mul, norm_sq_mk]
  have hES : E = S + halfSpan S E + halfSpan S E := by unfold halfSpan; ring
  have hS : S - C = u * (((-H - d : ℝ) : ℂ) + (0 - e : ℝ) * Complex.I) := by
    rw [← hfr (-H, 0)]
    push_cast
    linear_combination huk
  have hE : E - C = u * (((H - d : ℝ) : ℂ) + (0 - e : ℝ) * Complex.I) := by
    rw [← hfr (H, 0)]
    push_cast
    linear_combination hES - huk
  have q1 : ‖S - C‖ ^ 2 = (H + d) ^ 2 + e ^ 2 := by rw [hS, nrm]; ring
  have q2 : ‖E - C‖ ^ 2 = (H - d) ^ 2 + e ^ 2 := by rw [hE, nrm]; ring
  have hreach : H ≤ r := by
    have : ‖E - S‖ ≤ ‖S - C‖ + ‖E - C‖ := by
      have := norm_sub_le (E - C) (S - C)
      rw [sub_sub_sub_cancel_right] at this
      linarith
    have h2 : ‖E - S‖ = 2 * H := by
      rw [hH]; unfold halfSpan; rw [norm_div]; norm_num; ring
    rw [hr]; linarith
  have hfsq : √(r ^ 2 - H ^ 2) ^ 2 = r ^ 2 - H ^ 2 := Real.sq_sqrt (by nlinarith)
  set f := √(r ^ 2 - H ^ 2) with hf
  have hf0 : 0 ≤ f := Real.sqrt_nonneg _
  have hL : leftCenter S E r - C = u * (((0 - d : ℝ) : ℂ) + (f - e : ℝ) * Complex.I) := by
    rw [← hfr (0, f)]
    unfold leftCenter toRight
    rw [← hH, ← hud, ← hf]
    push_cast
    ring
  have hR : rightCenter S E r - C = u * (((0 - d : ℝ) : ℂ) + (-f - e : ℝ) * Complex.I) := by
    rw [← hfr (0, -f)]
    unfold rightCenter toRight
    rw [← hH, ← hud, ← hf]
    push_cast
    ring
  have key := centre_real (norm_nonneg (S - C)) (norm_nonneg (E - C)) q1 q2 hf0 (by rw [hfsq, hr])
  have hsq : ‖c - C‖ ^ 2 ≤ 2 * d ^ 2 := by
    have b1 : ‖c - C‖ ^ 2 ≤ ‖leftCenter S E r - C‖ ^ 2 := by gcongr
    have b2 : ‖c - C‖ ^ 2 ≤ ‖rightCenter S E r - C‖ ^ 2 := by gcongr
    rw [hL, nrm] at b1
    rw [hR, nrm] at b2
    rcases abs_cases e with ⟨he, -⟩ | ⟨he, -⟩ <;> rw [he] at key <;> nlinarith
  refine ⟨d, ?_, ?_, ?_⟩
  · refine abs_le_of_sq_le_sq' ?_ (by positivity) |>.2
    rw [mul_pow, Real.sq_sqrt (by norm_num), sq_abs]
    exact hsq
  · have h2 : ‖E - S‖ = 2 * H := by
      rw [hH]; unfold halfSpan; rw [norm_div]; norm_num; ring
    have h3 : d * (2 * H) = (‖S - C‖ - ‖E - C‖) * r := by rw [hr]; nlinarith
    rw [h2, ← abs_of_pos (show 0 < 2 * H by linarith), ← abs_mul, h3, abs_mul, abs_of_pos (lt_of_lt_of_le hkn hreach)]
  · intro z hz
    obtain ⟨x, y, hxy⟩ : ∃ x y : ℝ, z = S + halfSpan S E + u * ((x : ℂ) + y * Complex.I) := by
      have hu0 : u ≠ 0 := div_ne_zero hk hn
      refine ⟨((z - S - halfSpan S E) / u).re, ((z - S - halfSpan S E) / u).im, ?_⟩
      rw [Complex.re_add_im, mul_div_cancel₀ _ hu0]
      ring
    have hSz : S - z = u * (((-H - x : ℝ) : ℂ) + (-y : ℝ) * Complex.I) := by
      rw [hxy]; push_cast; linear_combination huk
    have hEz : E - z = u * (((H - x : ℝ) : ℂ) + (-y : ℝ) * Complex.I) := by
      rw [hxy]; push_cast; linear_combination hES - huk
    have hx : x = 0 := by
      have : ‖S - z‖ ^ 2 = ‖E - z‖ ^ 2 := by rw [hz]
      rw [hSz, hEz, nrm, nrm] at this
      have : H * x = 0 := by nlinarith
      rcases mul_eq_zero.1 this with h0 | h0
      · exact absurd h0 hkn.ne'
      · exact h0
    have hzC : z - C = u * (((x - d : ℝ) : ℂ) + (y - e : ℝ) * Complex.I) := by
      rw [← hfr (x, y), hxy]
    refine abs_le_of_sq_le_sq ?_ (norm_nonneg _)
    rw [hzC, nrm, hx]
    nlinarith [sq_nonneg (y - e)]

/-- **C121**: the centre used for an arc with I, J, K: its distance from the one named is at most √2 times that of any place
equally far from both ends of the arc, and at most √2 times the difference of the named radii, by radius over span. -/
theorem C121_centre (p : Pl) (g : GCode) (s : V3) (q : Quat) (incr arcIncr : Bool) (e : ℝ) (a : Arc)
    (h : g.arcOf s p.normal q incr arcIncr e = .ok a) (hne : p.coord s ≠ p.coord (g.arcEnd s incr)) (hR : g.num? 'R' = none) :
    let S := p.coord s
    let E := p.coord (g.arcEnd s incr)
    let C := p.coord (g.arcCenter s arcIncr)
    let c := p.coord a.pCenter
    ‖S - c‖ = ‖E - c‖ ∧ (∀ z : ℂ, ‖S - z‖ = ‖E - z‖ → ‖c - C‖ ≤ √2 * ‖z - C‖) ∧
      ‖c - C‖ * ‖E - S‖ ≤ √2 * (|‖S - C‖ - ‖E - C‖| * ((‖S - C‖ + ‖E - C‖) / 2)) ∧
      |a.radius - ‖S - C‖| = |‖S - C‖ - ‖E - C‖| / 2 ∧ |a.radius - ‖E - C‖| = |‖S - C‖ - ‖E - C‖| / 2 := by
  intro S E C c
  have F := arcOf_ok p g s q incr arcIncr e a h
  obtain ⟨-, -, d1, d2⟩ := C56_center p g s q incr arcIncr e a h hne
  have hr := F.radiusC hR
  have hlr : ‖c - C‖ ≤ ‖leftCenter S E a.radius - C‖ ∧ ‖c - C‖ ≤ ‖rightCenter S E a.radius - C‖ := by
    rcases F.centerC hR with ⟨h1, h2⟩ | ⟨h1, h2⟩
    · exact ⟨(congrArg (fun x => ‖x - C‖) h1).le, (congrArg (fun x => ‖x - C‖) h1).le.trans h2.le⟩
    · exact ⟨(congrArg (fun x => ‖x - C‖) h1).le.trans h2, (congrArg (fun x => ‖x - C‖) h1).le⟩
  obtain ⟨d, k1, k2, k3⟩ := centre_near hne hr hlr.1 hlr.2
  refine ⟨d1.trans d2.symm, fun z hz => k1.trans ?_, ?_, ?_, ?_⟩
  · exact mul_le_mul_of_nonneg_left (k3 z hz) (Real.sqrt_nonneg 2)
  · rw [hr] at k2
    rw [← k2, ← mul_assoc]
    exact mul_le_mul_of_nonneg_right k1 (norm_nonneg _)
  · rw [hr, show (‖S - C‖ + ‖E - C‖) / 2 - ‖S - C‖ = -((‖S - C‖ - ‖E - C‖) / 2) by ring, _root_.abs_neg, abs_div, abs_two]
  · rw [hr, show (‖S - C‖ + ‖E - C‖) / 2 - ‖E - C‖ = (‖S - C‖ - ‖E - C‖) / 2 by ring, abs_div, abs_two]

theorem named_eq (g : GCode) (s : V3) (rel : Bool) : xy.coord (g.arcCenter s rel) = namedCentre g s rel := by
  unfold GCode.arcCenter namedCentre
  cases rel
  · apply Complex.ext <;> simp [Pl.coord]
  · apply Complex.ext <;> simp only [Pl.coord, if_true] <;> exact add_comm _ _

/-- **C121**: what linearize_arc returns for an arc with I and J in the XY plane (distance mode G90): all lines are as far from the
centre named as the mean of its distances from both ends, up to what the method allows and √2 times their difference, by radius
over span. -/
theorem C121_lines (g : GCode) (start : Position) (plane : Option Cls) (hpl : plane = none ∨ plane = some .selectXYPlane)
    (m : ArcMethod) (arcIncr : Bool) (e : ℝ) (d : ℤ) (vs : List V3) (s : V3) (hs : start.vector = s)
    (hne : xy.coord s ≠ xy.coord (g.arcEnd s false)) (hR : g.num? 'R' = none)
    (h : linearizeArc g start plane (some m) false arcIncr e d = (vs, .done)) :
    let r₁ := ‖xy.coord s - namedCentre g s arcIncr‖
    let r₂ := ‖xy.coord (g.arcEnd s false) - namedCentre g s arcIncr‖
    ∀ l ∈ segments s vs, ∀ t, 0 ≤ t → t ≤ 1 →
      |‖xy.coord (onSegment l t) - namedCentre g s arcIncr‖ - (r₁ + r₂) / 2| ≤
        allowed m e + √2 * (|r₁ - r₂| * ((r₁ + r₂) / 2)) / ‖xy.coord (g.arcEnd s false) - xy.coord s‖ := by
  intro r₁ r₂ l hl t ht0 ht1
  obtain ⟨p, m', s', q, a, ls, D, rfl⟩ := linearize_done h
  obtain rfl : m = m' := Option.some.inj D.method
  obtain rfl : s = s' := by exact hs.symm.trans D.start
  have hp : p = xy := by
    have := D.plane
    rcases hpl with rfl | rfl <;> cases p <;> first | rfl | (exact absurd this (by decide))
  subst hp
  obtain rfl : Quat.one = q := Option.some.inj D.quat
  obtain ⟨-, -, c3, -, -⟩ := C121_centre xy g s _ false arcIncr e a D.ok hne hR
  have hrad := (arcOf_ok xy g s _ false arcIncr e a D.ok).radiusC hR
  rw [named_eq] at c3 hrad
  have hE : 0 < ‖xy.coord (g.arcEnd s false) - xy.coord s‖ := norm_pos_iff.2 (sub_ne_zero.2 (Ne.symm hne))
  have hcc : ‖xy.coord a.pCenter - namedCentre g s arcIncr‖ ≤
      √2 * (|r₁ - r₂| * ((r₁ + r₂) / 2)) / ‖xy.coord (g.arcEnd s false) - xy.coord s‖ := by
    rw [le_div_iff₀ hE]; exact c3
  obtain ⟨-, -, h11⟩ := done_shape D
  simp only [Bool.false_eq_true, if_false] at hl
  rw [← h11] at hl
  obtain ⟨ls', h9, h10⟩ := C57_error xy g s _ false arcIncr e a D.ok hne D.pos (sweeps_xy g s false arcIncr e a D.ok) m
  obtain rfl : ls = ls' := by have := D.verts; rw [h9] at this; exact (Except.ok.inj this).symm
  have hd : |‖xy.coord (onSegment l t) - xy.coord a.pCenter‖ - a.radius| ≤ allowed m e := by
    have := h10 l hl t ht0 ht1
    have he := D.pos
    cases m <;> simp only [allowed] at this ⊢ <;> rw [abs_le] <;> constructor <;> linarith [this.1, this.2]
  have htri : |‖xy.coord (onSegment l t) - namedCentre g s arcIncr‖ - ‖xy.coord (onSegment l t) - xy.coord a.pCenter‖| ≤
      ‖xy.coord a.pCenter - namedCentre g s arcIncr‖ := by
    refine (abs_norm_sub_norm_le _ _).trans (le_of_eq ?_)
    congr 1
    ring
  rw [hrad] at hd
  calc _ = |(‖xy.coord (onSegment l t) - namedCentre g s arcIncr‖ - ‖xy.coord (onSegment l t) - xy.coord a.pCenter‖) +
        (‖xy.coord (onSegment l t) - xy.coord a.pCenter‖ - (r₁ + r₂) / 2)| := by congr 1; ring
    _ ≤ _ := (abs_add_le _ _).trans (by linarith)

/-! ## Instance -/

/-- `G3 X0 Y1.1 I-1`: from (1, 0) its radius is 1, at the end 1.1. -/
def ovalArc : GCode := ⟨.arcMoveCCW, ⟨'G', .num 3⟩, [⟨'X', .num 0⟩, ⟨'Y', .num (11 / 10)⟩, ⟨'I', .num (-1)⟩], false⟩

theorem oval_facts : ovalArc.arcEnd ⟨(1 : ℚ), (0 : ℚ), (0 : ℚ)⟩ false = ⟨0, 11 / 10, 0⟩ ∧ namedCentre ovalArc ⟨(1 : ℚ), (0 : ℚ), (0 : ℚ)⟩ true = 0 ∧
    xy.coord ⟨(1 : ℚ), (0 : ℚ), (0 : ℚ)⟩ = 1 ∧ xy.coord ⟨0, 11 / 10, 0⟩ = (11 / 10 : ℝ) * Complex.I ∧ ovalArc.num? 'R' = none := by
  refine ⟨?_, ?_, ?_, ?_, by decide +kernel⟩
  · simp [GCode.arcEnd, ovalArc, GCode.num?, GCode.param, Word.num]
  · apply Complex.ext <;> simp [namedCentre, ovalArc, GCode.num?, GCode.param, Word.num]
  · apply Complex.ext <;> simp [Pl.coord]
  · apply Complex.ext <;> simp [Pl.coord]

theorem oval_apart : xy.coord ⟨(1 : ℚ), (0 : ℚ), (0 : ℚ)⟩ ≠ xy.coord (ovalArc.arcEnd ⟨(1 : ℚ), (0 : ℚ), (0 : ℚ)⟩ false) := by
  rw [oval_facts.1]; intro h; have := congrArg Complex.re h; simp [Pl.coord] at this

/-- The span is longer than 1.48, and √2 less than 1.415. -/
theorem oval_span : (148 / 100 : ℝ) ≤ ‖((11 / 10 : ℝ) * Complex.I - 1 : ℂ)‖ ∧ √2 ≤ 1415 / 1000 := by
  constructor
  · refine abs_le_of_sq_le_sq' ?_ (norm_nonneg _) |>.2
    rw [show ((11 / 10 : ℝ) * Complex.I - 1 : ℂ) = ((-1 : ℝ) : ℂ) + (11 / 10 : ℝ) * Complex.I by push_cast; ring, norm_sq_mk]
    norm_num
  · rw [Real.sqrt_le_left (by norm_num)]; norm_num

/-- The centre used is within 0.101 of the one named, at the same distance from both ends. -/
example : ∃ a, ovalArc.arcOf ⟨(1 : ℚ), (0 : ℚ), (0 : ℚ)⟩ xy.normal Quat.one false true (1 / 100) = .ok a ∧
    ‖xy.coord a.pCenter‖ ≤ 101 / 1000 := by
  obtain ⟨hE, hC, hS, hI, hR⟩ := oval_facts
  obtain ⟨a, ha⟩ := (C62_reach xy ovalArc ⟨(1 : ℚ), (0 : ℚ), (0 : ℚ)⟩ Quat.one false true (1 / 100)).2
    ⟨by decide +kernel, fun r hr => by rw [hR] at hr; cases hr⟩
  refine ⟨a, ha, ?_⟩
  obtain ⟨-, -, h1, -⟩ := C121_centre xy _ _ _ _ _ _ a ha oval_apart hR
  rw [named_eq, hC, hS, hE, hI, sub_zero, sub_zero, sub_zero, norm_mul, Complex.norm_I, Complex.norm_real, norm_one, mul_one, Real.norm_eq_abs,
    abs_of_pos (by norm_num : (0 : ℝ) < 11 / 10), abs_of_neg (by norm_num : (1 : ℝ) - 11 / 10 < 0)] at h1
  obtain ⟨k1, k2⟩ := oval_span
  nlinarith [norm_nonneg (xy.coord a.pCenter), Real.sqrt_nonneg 2]

/-- The radius used is the mean of 1 and 1.1, and no place as far from both ends is nearer to the centre named. -/
example : ∃ a, ovalArc.arcOf ⟨(1 : ℚ), (0 : ℚ), (0 : ℚ)⟩ xy.normal Quat.one false true (1 / 100) = .ok a ∧
    ‖1 - xy.coord a.pCenter‖ = 105 / 100 ∧ ∀ z : ℂ, ‖1 - z‖ = 105 / 100 → ‖(11 / 10 : ℝ) * Complex.I - z‖ = 105 / 100 →
      ‖xy.coord a.pCenter‖ ≤ ‖z‖ := by
  obtain ⟨hE, hC, hS, hI, hR⟩ := oval_facts
  obtain ⟨a, ha⟩ := (C62_reach xy ovalArc ⟨(1 : ℚ), (0 : ℚ), (0 : ℚ)⟩ Quat.one false true (1 / 100)).2
    ⟨by decide +kernel, fun r hr => by rw [hR] at hr; cases hr⟩
  refine ⟨a, ha, ?_⟩
  obtain ⟨h1, -, h2⟩ := C121_mean xy _ _ _ _ _ _ a ha oval_apart hR
  rw [named_eq, hC, hS, hE, hI, sub_zero, sub_zero, norm_mul, Complex.norm_I, Complex.norm_real, norm_one, mul_one, Real.norm_eq_abs,
    abs_of_pos (by norm_num : (0 : ℝ) < 11 / 10), show ((1 : ℝ) + 11 / 10) / 2 = 105 / 100 by norm_num] at h2
  rw [named_eq, hC, hS, hE, hI, sub_zero, sub_zero, norm_mul, Complex.norm_I, Complex.norm_real, norm_one, mul_one, Real.norm_eq_abs,
    abs_of_pos (by norm_num : (0 : ℝ) < 11 / 10), show ((1 : ℝ) + 11 / 10) / 2 = 105 / 100 by norm_num] at h1
  refine ⟨h1, fun z z1 z2 => ?_⟩
  have := h2 z z1 z2
  rwa [sub_zero, sub_zero] at this

/-- All lines printed for it (method mid, precision 0.01) are between 0.94 and 1.16 from the centre named. -/
example : ∃ vs, linearizeArc ovalArc (at3 1 0 0) none (some .mid) false true (1 / 100) 3 = (vs, .done) ∧
    ∀ l ∈ segments ⟨(1 : ℚ), (0 : ℚ), (0 : ℚ)⟩ vs, ∀ t, 0 ≤ t → t ≤ 1 →
      |‖xy.coord (onSegment l t)‖ - 105 / 100| ≤ 11 / 100 := by
  obtain ⟨hE, hC, hS, hI, hR⟩ := oval_facts
  have hs := at3_vector 1 0 0
  obtain ⟨vs, h⟩ := (C62_done ovalArc _ .mid false true (1 / 100) 3 _ hs oval_apart).2
    ⟨by decide +kernel, by norm_num, by decide +kernel, fun r hr => by rw [hR] at hr; cases hr⟩
  refine ⟨vs, h, fun l hl t ht0 ht1 => ?_⟩
  have h1 := C121_lines _ _ _ (.inl rfl) _ _ _ _ _ _ hs oval_apart hR h l hl t ht0 ht1
  rw [hC, hS, hE, hI, sub_zero, sub_zero, sub_zero, norm_mul, Complex.norm_I, Complex.norm_real, norm_one, mul_one, Real.norm_eq_abs,
    abs_of_pos (by norm_num : (0 : ℝ) < 11 / 10), abs_of_neg (by norm_num : (1 : ℝ) - 11 / 10 < 0)] at h1
  obtain ⟨k1, k2⟩ := oval_span
  have h2 : √2 * (-(1 - 11 / 10) * ((1 + 11 / 10) / 2)) / ‖((11 / 10 : ℝ) * Complex.I - 1 : ℂ)‖ ≤ 101 / 1000 := by
    rw [div_le_iff₀ (by linarith)]
    nlinarith [Real.sqrt_nonneg 2]
  rw [show ((1 : ℝ) + 11 / 10) / 2 = 105 / 100 by norm_num] at h1 h2
  refine h1.trans ?_
  simp only [allowed]
  linarith

end Pygcode
