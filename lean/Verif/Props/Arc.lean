import Verif.Lemmas.ArcMethod

/-!
# Linearized arcs (C54–C62)
-/

namespace Pygcode
open Pl

/-! ## Specification -/

/-- The segments of a path from `s` through the given points. -/
def segments (s : V3) (vs : List V3) : List (V3 × V3) := (s :: vs).zip vs

/-- Points of a segment. -/
def onSegment (l : V3 × V3) (t : ℝ) : V3 := l.1 + (l.2 - l.1).mul t

/-- The path described by a list of increments. -/
def summed (s : V3) : List V3 → List V3
  | [] => []
  | d :: ds => (s + d) :: summed (s + d) ds

/-! ## C56 -/

/-- Centre and radius of every accepted arc: at that distance from both ends, and in the plane. -/
theorem C56_center (p : Pl) (g : GCode) (s : V3) (q : Quat) (incr arcIncr : Bool) (e : ℝ) (a : Arc)
    (h : g.arcOf s p.normal q incr arcIncr e = .ok a) (hne : p.coord s ≠ p.coord (g.arcEnd s incr)) :
    0 < a.radius ∧ p.height a.pCenter = 0 ∧ ‖p.coord s - p.coord a.pCenter‖ = a.radius ∧
      ‖p.coord (g.arcEnd s incr) - p.coord a.pCenter‖ = a.radius := by
  have F := arcOf_ok p g s q incr arcIncr e a h
  have hpos : 0 < a.radius := lt_of_lt_of_le (norm_pos_iff.2 (half_ne hne)) F.reach
  refine ⟨hpos, F.hpCenter, ?_⟩
  have hl := left_dist hne F.reach
  have hr := right_dist hne F.reach
  cases hR : g.num? 'R' with
  | some r =>
    rw [F.centerR r hR]
    split_ifs
    · exact hl
    · exact hr
  | none =>
    rcases F.centerC hR with ⟨h1, -⟩ | ⟨h1, -⟩ <;> rw [h1]
    · exact hl
    · exact hr

/-- With R the radius is its magnitude. -/
theorem C56_radius (p : Pl) (g : GCode) (s : V3) (q : Quat) (incr arcIncr : Bool) (e : ℝ) (a : Arc)
    (h : g.arcOf s p.normal q incr arcIncr e = .ok a) (r : ℚ) (hR : g.num? 'R' = some r) : a.radius = |(r : ℝ)| :=
  ((arcOf_ok p g s q incr arcIncr e a h).radiusR r hR).1

/-- With I, J, K: a consistent centre is used as given. -/
theorem C56_given (p : Pl) (g : GCode) (s : V3) (q : Quat) (incr arcIncr : Bool) (e : ℝ) (a : Arc)
    (h : g.arcOf s p.normal q incr arcIncr e = .ok a) (hne : p.coord s ≠ p.coord (g.arcEnd s incr))
    (hR : g.num? 'R' = none)
    (hc : ‖p.coord s - p.coord (g.arcCenter s arcIncr)‖ = ‖p.coord (g.arcEnd s incr) - p.coord (g.arcCenter s arcIncr)‖) :
    p.coord a.pCenter = p.coord (g.arcCenter s arcIncr) ∧ a.radius = ‖p.coord s - p.coord (g.arcCenter s arcIncr)‖ := by
  have F := arcOf_ok p g s q incr arcIncr e a h
  have hrad : a.radius = ‖p.coord s - p.coord (g.arcCenter s arcIncr)‖ := by
    rw [F.radiusC hR, ← hc]; ring
  refine ⟨?_, hrad⟩
  obtain hg | hg := two_centers hne hrad.symm (hc.symm.trans hrad.symm)
  · rcases F.centerC hR with ⟨h1, h2⟩ | ⟨h1, h2⟩
    · rw [h1, hg]
    · rw [h1]
      rw [hg, sub_self, norm_zero] at h2
      rw [hg]
      exact sub_eq_zero.1 (norm_le_zero_iff.1 h2)
  · rcases F.centerC hR with ⟨h1, h2⟩ | ⟨h1, h2⟩
    · rw [hg, sub_self, norm_zero] at h2
      exact absurd h2 (not_lt.2 (norm_nonneg _))
    · rw [h1, hg]

/-! ## C58 -/

theorem one_apply (v : V3) : Quat.one.apply v = v := by
  simp [Quat.apply, Quat.one]

theorem atan2_xy (v : V3) : atan2 v.y v.x = Complex.arg (xy.coord v) := rfl

/-- The computed angle takes the start to the end. -/
def Sweeps (p : Pl) (a : Arc) : Prop :=
  p.coord a.pEnd - p.coord a.pCenter = cw a.angle * (p.coord a.pStart - p.coord a.pCenter)

theorem angle_range (p : Pl) (g : GCode) (s : V3) (q : Quat) (incr arcIncr : Bool) (e : ℝ) (a : Arc)
    (F : ArcFacts p g s q incr arcIncr e a) :
    (g.cls.isSub .arcMoveCW = true → 0 ≤ a.angle ∧ a.angle < 2 * Real.pi) ∧
      (g.cls.isSub .arcMoveCW = false → -(2 * Real.pi) < a.angle ∧ a.angle ≤ 0) := by
  have h2 : 0 < 2 * Real.pi := by linarith [Real.pi_pos]
  rw [F.angle]
  constructor
  · intro h; rw [if_pos h]; exact fmod_range _ h2
  · intro h
    rw [if_neg (by rw [h]; decide)]
    have := fmod_range (atan2 (q.apply (a.pEnd - a.pCenter)).y (q.apply (a.pEnd - a.pCenter)).x -
        atan2 (q.apply (a.pStart - a.pCenter)).y (q.apply (a.pStart - a.pCenter)).x) h2
    constructor <;> linarith [this.1, this.2]

/-- XY plane: turning the start about the centre by the computed angle (clockwise if positive) gives
the end; clockwise arcs turn clockwise, the others counter-clockwise, by less than a full turn. -/
theorem C58_xy_partial (g : GCode) (s : V3) (incr arcIncr : Bool) (e : ℝ) (a : Arc)
    (h : g.arcOf s xy.normal Quat.one incr arcIncr e = .ok a) :
    xy.coord (g.arcEnd s incr) - xy.coord a.pCenter =
        Complex.exp (-(a.angle * Complex.I)) * (xy.coord s - xy.coord a.pCenter) ∧
      (g.cls.isSub .arcMoveCW = true → 0 ≤ a.angle ∧ a.angle < 2 * Real.pi) ∧
      (g.cls.isSub .arcMoveCW = false → -(2 * Real.pi) < a.angle ∧ a.angle ≤ 0) := by
  have F := arcOf_ok xy g s _ incr arcIncr e a h
  refine ⟨?_, angle_range xy g s _ incr arcIncr e a F⟩
  have hnorm : ‖xy.coord (a.pStart - a.pCenter)‖ = ‖xy.coord (a.pEnd - a.pCenter)‖ := by
    rw [coord_sub, coord_sub, F.cStart, F.cEnd]
    by_cases hne : xy.coord s = xy.coord (g.arcEnd s incr)
    · rw [hne]
    · obtain ⟨-, -, h1, h2⟩ := C56_center xy g s _ incr arcIncr e a h hne
      rw [h1, h2]
  have hang := F.angle
  rw [one_apply, one_apply, atan2_xy, atan2_xy] at hang
  rw [← F.cStart, ← F.cEnd, ← coord_sub, ← coord_sub, hang]
  split_ifs
  · exact (turn_cw _ _ hnorm).symm
  · exact (turn_ccw _ _ hnorm).symm

theorem sweeps_xy (g : GCode) (s : V3) (incr arcIncr : Bool) (e : ℝ) (a : Arc)
    (h : g.arcOf s xy.normal Quat.one incr arcIncr e = .ok a) : Sweeps xy a := by
  have F := arcOf_ok xy g s _ incr arcIncr e a h
  unfold Sweeps
  rw [F.cStart, F.cEnd]
  exact (C58_xy_partial g s incr arcIncr e a h).1

/-- Clockwise turning angle, as sine, of the two possible centres. -/
theorem sin_of_turn {S E : ℂ} (h : S ≠ E) (r : ℝ) (θ : ℝ) :
    (E - rightCenter S E r = cw θ * (S - rightCenter S E r) → 0 ≤ Real.sin θ) ∧
    (E - leftCenter S E r = cw θ * (S - leftCenter S E r) → Real.sin θ ≤ 0) := by
  set k : ℝ := √(r ^ 2 - ‖halfSpan S E‖ ^ 2) / ‖halfSpan S E‖ with hk
  have hk0 : 0 ≤ k := div_nonneg (Real.sqrt_nonneg _) (norm_nonneg _)
  have hm := half_ne h
  have hcw : cw θ = ⟨Real.cos θ, -Real.sin θ⟩ := by
    unfold cw
    rw [show -((θ : ℂ) * Complex.I) = ((-θ : ℝ) : ℂ) * Complex.I by push_cast; ring]
    apply Complex.ext
    · rw [Complex.exp_ofReal_mul_I_re, Real.cos_neg]
    · rw [Complex.exp_ofReal_mul_I_im, Real.sin_neg]
  constructor
  · intro h1
    rw [(from_right h r).1, (from_right h r).2, ← hk] at h1
    have h2 : (1 : ℂ) + Complex.I * k = -(cw θ * (1 - Complex.I * k)) := by
      apply mul_left_cancel₀ hm
      rw [h1]; ring
    rw [hcw] at h2
    have hre := congrArg Complex.re h2
    have him := congrArg Complex.im h2
    simp at hre him
    nlinarith [sq_nonneg k, Real.sin_sq_add_cos_sq θ]
  · intro h1
    rw [(from_left h r).1, (from_left h r).2, ← hk] at h1
    have h2 : (1 : ℂ) - Complex.I * k = -(cw θ * (1 + Complex.I * k)) := by
      apply mul_left_cancel₀ hm
      rw [h1]; ring
    rw [hcw] at h2
    have hre := congrArg Complex.re h2
    have him := congrArg Complex.im h2
    simp at hre him
    nlinarith [sq_nonneg k, Real.sin_sq_add_cos_sq θ]

theorem angle_ne (p : Pl) (a : Arc) (h : Sweeps p a) (hne : p.coord a.pStart ≠ p.coord a.pEnd) : a.angle ≠ 0 := by
  intro h0
  unfold Sweeps at h
  rw [h0, cw_zero, one_mul] at h
  exact hne (sub_left_injective h).symm

/-- XY plane: a positive R is an arc of at most half a turn, a negative one of at least half a turn. -/
theorem C58_half_partial (g : GCode) (s : V3) (incr arcIncr : Bool) (e : ℝ) (a : Arc)
    (h : g.arcOf s xy.normal Quat.one incr arcIncr e = .ok a)
    (hne : xy.coord s ≠ xy.coord (g.arcEnd s incr)) (r : ℚ) (hR : g.num? 'R' = some r) :
    (0 < r → |a.angle| ≤ Real.pi) ∧ (r < 0 → Real.pi ≤ |a.angle|) := by
  have F := arcOf_ok xy g s _ incr arcIncr e a h
  have hsw := (C58_xy_partial g s incr arcIncr e a h).1
  have hrange := angle_range xy g s _ incr arcIncr e a F
  have h0 := angle_ne xy a (sweeps_xy g s incr arcIncr e a h) (by rw [F.cStart, F.cEnd]; exact hne)
  have hs := sin_of_turn hne a.radius a.angle
  have hc := F.centerR r hR
  have hpi := Real.pi_pos
  have hle : ∀ x : ℝ, 0 ≤ x → x < 2 * Real.pi → 0 ≤ Real.sin x → x ≤ Real.pi := by
    intro x h1 h2 h3
    by_contra h4
    push Not at h4
    have := Real.sin_neg_of_neg_of_neg_pi_lt (x := x - 2 * Real.pi) (by linarith) (by linarith)
    rw [Real.sin_sub_two_pi] at this
    linarith
  have hge : ∀ x : ℝ, 0 < x → x < 2 * Real.pi → Real.sin x ≤ 0 → Real.pi ≤ x := by
    intro x h1 h2 h3
    by_contra h4
    push Not at h4
    have := Real.sin_pos_of_pos_of_lt_pi h1 h4
    linarith
  cases hcw : g.cls.isSub .arcMoveCW with
  | true =>
    obtain ⟨h1, h2⟩ := hrange.1 hcw
    rw [hcw] at hc
    rw [abs_of_nonneg h1]
    constructor
    · intro hr
      rw [if_neg (by simp; linarith)] at hc
      exact hle _ h1 h2 (hs.1 (hc ▸ hsw))
    · intro hr
      rw [if_pos (by simpa using hr)] at hc
      exact hge _ (lt_of_le_of_ne h1 (Ne.symm h0)) h2 (hs.2 (hc ▸ hsw))
  | false =>
    obtain ⟨h1, h2⟩ := hrange.2 hcw
    rw [hcw] at hc
    rw [abs_of_nonpos h2]
    constructor
    · intro hr
      rw [if_pos (by simp; linarith)] at hc
      refine hle _ (by linarith) (by linarith) ?_
      rw [Real.sin_neg]
      linarith [hs.2 (hc ▸ hsw)]
    · intro hr
      rw [if_neg (by simpa using hr)] at hc
      refine hge _ (by linarith [lt_of_le_of_ne h2 h0]) (by linarith) ?_
      rw [Real.sin_neg]
      linarith [hs.1 (hc ▸ hsw)]

/-! ### The other planes -/

theorem align_unit (a b : V3) (ha : a.abs = 1) (hb : b.abs = 1) (hab : a.dot b = 0) (hx : (a.cross b).abs = 1) :
    quat2align a b = ⟨√2 / 2, (a.cross b).x * (√2 / 2), (a.cross b).y * (√2 / 2), (a.cross b).z * (√2 / 2)⟩ := by
  unfold quat2align V3.angle Quat.rotateAxis V3.normalized
  rw [ha, hb, hab, hx, if_neg one_ne_zero]
  have h1 : Real.arccos (0 / (1 * 1)) / 2 = Real.pi / 4 := by
    rw [zero_div, Real.arccos_zero]; ring
  simp only [h1, Real.cos_pi_div_four, Real.sin_pi_div_four, div_one]

theorem abs_unit (v : V3) (h : v.x ^ 2 + v.y ^ 2 + v.z ^ 2 = 1) : v.abs = 1 := by
  unfold V3.abs; rw [h, Real.sqrt_one]

theorem normalized_unit (v : V3) (h : v.x ^ 2 + v.y ^ 2 + v.z ^ 2 = 1) : v.normalized = v := by
  unfold V3.normalized
  rw [abs_unit v h, if_neg one_ne_zero]
  simp

theorem sqrt_half : √2 / 2 * (√2 / 2) = (1 / 2 : ℝ) := by
  rw [div_mul_div_comm, Real.mul_self_sqrt (by norm_num)]; norm_num

/-- The quaternions of the two planes permute the axes. -/
theorem quat_zx : ∃ q, planeQuat zx.cls = some q ∧ ∀ v, q.apply v = ⟨v.y, v.z, v.x⟩ := by
  refine ⟨_, rfl, fun v => ?_⟩
  unfold quat2coordSystem
  simp only
  rw [normalized_unit ⟨1, 0, 0⟩ (by norm_num), normalized_unit ⟨0, 1, 0⟩ (by norm_num),
    normalized_unit ⟨0, 0, 1⟩ (by norm_num)]
  have h1 : quat2align ⟨1, 0, 0⟩ ⟨0, 0, 1⟩ = ⟨√2 / 2, 0, -(√2 / 2), 0⟩ := by
    rw [align_unit _ _ (abs_unit _ (by norm_num)) (abs_unit _ (by norm_num)) (by norm_num [V3.dot])
      (abs_unit _ (by norm_num [V3.cross]))]
    simp [V3.cross]
  have h2 : Quat.apply ⟨√2 / 2, 0, -(√2 / 2), 0⟩ ⟨0, 1, 0⟩ = ⟨0, 1, 0⟩ := by
    have := sqrt_half
    simp only [Quat.apply, V3.mk.injEq]
    refine ⟨by ring, by linarith, by ring⟩
  have h3 : quat2align ⟨0, 1, 0⟩ ⟨1, 0, 0⟩ = ⟨√2 / 2, 0, 0, -(√2 / 2)⟩ := by
    rw [align_unit _ _ (abs_unit _ (by norm_num)) (abs_unit _ (by norm_num)) (by norm_num [V3.dot])
      (abs_unit _ (by norm_num [V3.cross]))]
    simp [V3.cross]
  have h4 : Quat.mul ⟨√2 / 2, 0, 0, -(√2 / 2)⟩ ⟨√2 / 2, 0, -(√2 / 2), 0⟩ = ⟨1 / 2, -1 / 2, -1 / 2, -1 / 2⟩ := by
    have := sqrt_half
    simp only [Quat.mul, Quat.mk.injEq]
    refine ⟨by linarith, by linarith, by linarith, by linarith⟩
  rw [h1, h2, h3, h4]
  simp only [Quat.apply, V3.mk.injEq]
  refine ⟨by ring, by ring, by ring⟩

theorem quat_yz : ∃ q, planeQuat yz.cls = some q ∧ ∀ v, q.apply v = ⟨v.z, v.x, v.y⟩ := by
  refine ⟨_, rfl, fun v => ?_⟩
  unfold quat2coordSystem
  simp only
  rw [normalized_unit ⟨1, 0, 0⟩ (by norm_num), normalized_unit ⟨0, 1, 0⟩ (by norm_num),
    normalized_unit ⟨0, 0, 1⟩ (by norm_num)]
  have h1 : quat2align ⟨1, 0, 0⟩ ⟨0, 1, 0⟩ = ⟨√2 / 2, 0, 0, √2 / 2⟩ := by
    rw [align_unit _ _ (abs_unit _ (by norm_num)) (abs_unit _ (by norm_num)) (by norm_num [V3.dot])
      (abs_unit _ (by norm_num [V3.cross]))]
    simp [V3.cross]
  have h2 : Quat.apply ⟨√2 / 2, 0, 0, √2 / 2⟩ ⟨0, 1, 0⟩ = ⟨-1, 0, 0⟩ := by
    have := sqrt_half
    simp only [Quat.apply, V3.mk.injEq]
    refine ⟨by linarith, by ring, by ring⟩
  have h3 : quat2align ⟨-1, 0, 0⟩ ⟨0, 0, 1⟩ = ⟨√2 / 2, 0, √2 / 2, 0⟩ := by
    rw [align_unit _ _ (abs_unit _ (by norm_num)) (abs_unit _ (by norm_num)) (by norm_num [V3.dot])
      (abs_unit _ (by norm_num [V3.cross]))]
    simp [V3.cross]
  have h4 : Quat.mul ⟨√2 / 2, 0, √2 / 2, 0⟩ ⟨√2 / 2, 0, 0, √2 / 2⟩ = ⟨1 / 2, 1 / 2, 1 / 2, 1 / 2⟩ := by
    have := sqrt_half
    simp only [Quat.mul, Quat.mk.injEq]
    refine ⟨by linarith, by linarith, by linarith, by linarith⟩
  rw [h1, h2, h3, h4]
  simp only [Quat.apply, V3.mk.injEq]
  refine ⟨by ring, by ring, by ring⟩

theorem fmod_multiple (k : ℤ) (c : ℝ) (m : ℤ) (hm : m ≠ 0) (hc : c ≠ 0) : ∃ j : ℤ, fmod (k * c) (m * c) = j * c := by
  refine ⟨k - m * ⌊((k * c) / (m * c) : ℝ)⌋, ?_⟩
  unfold fmod
  push_cast
  ring

/-- ZX plane: the computed angle is always a multiple of a quarter turn, whatever the arc. -/
theorem C58_zx_quarters (g : GCode) (s : V3) (q : Quat) (hq : planeQuat zx.cls = some q) (incr arcIncr : Bool) (e : ℝ)
    (a : Arc) (h : g.arcOf s zx.normal q incr arcIncr e = .ok a) : ∃ k : ℤ, a.angle = k * (Real.pi / 2) := by
  obtain ⟨q', hq', hap⟩ := quat_zx
  obtain rfl : q = q' := by rw [hq] at hq'; exact Option.some.inj hq'
  have F := arcOf_ok zx g s q incr arcIncr e a h
  have hat : ∀ v : V3, zx.height v = 0 → ∃ k : ℤ, atan2 (q.apply v).y (q.apply v).x = k * (Real.pi / 2) := by
    intro v hv
    have h0 : v.y = 0 := hv
    rw [hap]
    simp only [h0]
    unfold atan2
    rcases lt_trichotomy v.z 0 with hz | hz | hz
    · refine ⟨-1, ?_⟩
      rw [show (⟨0, v.z⟩ : ℂ) = ((-v.z : ℝ) : ℂ) * (-Complex.I) by apply Complex.ext <;> simp,
        Complex.arg_real_mul _ (by linarith), Complex.arg_neg_I]
      push_cast; ring
    · refine ⟨0, ?_⟩
      rw [hz, show (⟨0, 0⟩ : ℂ) = 0 from rfl, Complex.arg_zero]; simp
    · refine ⟨1, ?_⟩
      rw [show (⟨0, v.z⟩ : ℂ) = ((v.z : ℝ) : ℂ) * Complex.I by apply Complex.ext <;> simp,
        Complex.arg_real_mul _ hz, Complex.arg_I]
      push_cast; ring
  obtain ⟨k1, h1⟩ := hat (a.pStart - a.pCenter) (by rw [height_sub, F.hpStart, F.hpCenter, sub_zero])
  obtain ⟨k2, h2⟩ := hat (a.pEnd - a.pCenter) (by rw [height_sub, F.hpEnd, F.hpCenter, sub_zero])
  have hpi : Real.pi / 2 ≠ 0 := by positivity
  have h2p : 2 * Real.pi = ((4 : ℤ) : ℝ) * (Real.pi / 2) := by push_cast; ring
  rw [F.angle, h1, h2, h2p]
  split_ifs
  · obtain ⟨j, hj⟩ := fmod_multiple (k1 - k2) (Real.pi / 2) 4 (by norm_num) hpi
    refine ⟨j, ?_⟩
    rw [← hj]; congr 1; push_cast; ring
  · obtain ⟨j, hj⟩ := fmod_multiple (k2 - k1) (Real.pi / 2) 4 (by norm_num) hpi
    refine ⟨-j, ?_⟩
    rw [show ((-j : ℤ) : ℝ) * (Real.pi / 2) = -(j * (Real.pi / 2)) by push_cast; ring, ← hj]
    congr 2; push_cast; ring

/-- YZ plane: the computed angle is always a multiple of half a turn, whatever the arc. -/
theorem C58_yz_halves (g : GCode) (s : V3) (q : Quat) (hq : planeQuat yz.cls = some q) (incr arcIncr : Bool) (e : ℝ)
    (a : Arc) (h : g.arcOf s yz.normal q incr arcIncr e = .ok a) : ∃ k : ℤ, a.angle = k * Real.pi := by
  obtain ⟨q', hq', hap⟩ := quat_yz
  obtain rfl : q = q' := by rw [hq] at hq'; exact Option.some.inj hq'
  have F := arcOf_ok yz g s q incr arcIncr e a h
  have hat : ∀ v : V3, yz.height v = 0 → ∃ k : ℤ, atan2 (q.apply v).y (q.apply v).x = k * Real.pi := by
    intro v hv
    have h0 : v.x = 0 := hv
    rw [hap]
    simp only [h0]
    unfold atan2
    rw [show (⟨v.z, 0⟩ : ℂ) = ((v.z : ℝ) : ℂ) from rfl]
    rcases lt_or_ge v.z 0 with hz | hz
    · exact ⟨1, by rw [Complex.arg_ofReal_of_neg hz]; simp⟩
    · exact ⟨0, by rw [Complex.arg_ofReal_of_nonneg hz]; simp⟩
  obtain ⟨k1, h1⟩ := hat (a.pStart - a.pCenter) (by rw [height_sub, F.hpStart, F.hpCenter, sub_zero])
  obtain ⟨k2, h2⟩ := hat (a.pEnd - a.pCenter) (by rw [height_sub, F.hpEnd, F.hpCenter, sub_zero])
  have hpi : Real.pi ≠ 0 := Real.pi_ne_zero
  have h2p : 2 * Real.pi = ((2 : ℤ) : ℝ) * Real.pi := by push_cast; ring
  rw [F.angle, h1, h2, h2p]
  split_ifs
  · obtain ⟨j, hj⟩ := fmod_multiple (k1 - k2) Real.pi 2 (by norm_num) hpi
    refine ⟨j, ?_⟩
    rw [← hj]; congr 1; push_cast; ring
  · obtain ⟨j, hj⟩ := fmod_multiple (k2 - k1) Real.pi 2 (by norm_num) hpi
    refine ⟨-j, ?_⟩
    rw [show ((-j : ℤ) : ℝ) * Real.pi = -(j * Real.pi) by push_cast; ring, ← hj]
    congr 2; push_cast; ring

/-! ## C57 -/

/-- Every point of every line is as far from the centre as the method promises, provided the computed
angle takes the start to the end. -/
theorem C57_error (p : Pl) (g : GCode) (s : V3) (q : Quat) (incr arcIncr : Bool) (e : ℝ) (a : Arc)
    (h : g.arcOf s p.normal q incr arcIncr e = .ok a) (hne : p.coord s ≠ p.coord (g.arcEnd s incr)) (he : 0 < e)
    (hsw : Sweeps p a) (m : ArcMethod) :
    ∃ ls, a.iterVertices m = .ok ls ∧ ∀ l ∈ ls, ∀ t, 0 ≤ t → t ≤ 1 →
      let d := ‖p.coord (onSegment l t) - p.coord a.pCenter‖
      match m with
      | .inside => a.radius - e ≤ d ∧ d ≤ a.radius
      | .outside => a.radius ≤ d ∧ d ≤ a.radius + e
      | .mid => a.radius - e / 2 ≤ d ∧ d ≤ a.radius + e / 2 := by
  have F := arcOf_ok p g s q incr arcIncr e a h
  obtain ⟨hr, hhC, hd1, hd2⟩ := C56_center p g s q incr arcIncr e a h hne
  have hang := angle_ne p a hsw (by rw [F.cStart, F.cEnd]; exact hne)
  have he' : 0 < a.maxError := by rw [F.maxError]; exact he
  obtain ⟨n, w, W⟩ := wedges a m he' hr hang
  obtain ⟨R, hR, hRr, hRhi, hRlo, hRin⟩ := outer_ok a m he' hr W
  refine ⟨_, iterVertices_ok a m W hR, ?_⟩
  intro l hl t h0 h1
  rw [lines_zip] at hl
  obtain ⟨i, hi1, hi2⟩ := zip_getElem _ _ _ hl
  have hrC : (a.radius : ℂ) ≠ 0 := by exact_mod_cast hr.ne'
  set u : ℂ := (p.coord a.pStart - p.coord a.pCenter) / a.radius with hu
  have hu' : p.coord a.pStart - p.coord a.pCenter = a.radius * u := by rw [hu]; field_simp
  have hu1 : ‖u‖ = 1 := by
    rw [hu, norm_div, F.cStart, hd1, Complex.norm_real, Real.norm_of_nonneg hr.le, div_self hr.ne']
  have hcp := fun i x hx => corner_point p a m (n := n) (w := w) (R := R) u F.normal F.hpStart F.hpCenter
    (by rw [F.hStart]; simp) (by rw [F.hEnd]; simp) hr hu' hu1 hsw i x hx
  obtain ⟨c1, hle1⟩ := hcp i _ hi1
  obtain ⟨c2, hle2⟩ := hcp (i + 1) _ hi2
  set eps := min a.maxError a.radius with heps
  have heps1 : eps ≤ e := by rw [← F.maxError]; exact min_le_left _ _
  have heps0 : 0 < eps := lt_min he' hr
  have hlor : lowest m a.radius eps ≤ a.radius := by cases m <;> simp only [lowest] <;> linarith
  have hrhi : a.radius ≤ highest m a.radius eps := by cases m <;> simp only [highest] <;> linarith
  obtain ⟨β, hb1, hb2⟩ := corner_pair a m W hr hRr hRin hRlo hlor i (by omega)
  have hρ : ∀ j, 0 ≤ (corner a m n w R j).1 ∧ (corner a m n w R j).1 ≤ highest m a.radius eps := by
    intro j
    unfold corner
    split_ifs
    · exact ⟨hr.le, hrhi⟩
    · exact ⟨hr.le.trans hRr, hRhi⟩
    · exact ⟨hr.le, hrhi⟩
  have hnorm : ∀ j, ‖((corner a m n w R j).1 : ℂ) * cw (corner a m n w R j).2 * u‖ ≤ highest m a.radius eps := by
    intro j
    rw [norm_mul, norm_mul, norm_cw, hu1, mul_one, mul_one, Complex.norm_real, Real.norm_of_nonneg (hρ j).1]
    exact (hρ j).2
  have hproj : ∀ j, ((((corner a m n w R j).1 : ℂ) * cw (corner a m n w R j).2 * u) *
      (starRingEnd ℂ) (cw β * u)).re = (corner a m n w R j).1 * Real.cos ((corner a m n w R j).2 - β) := by
    intro j
    have huu : u * (starRingEnd ℂ) u = 1 := by
      rw [Complex.mul_conj, Complex.normSq_eq_norm_sq, hu1]; simp
    rw [map_mul, show ((corner a m n w R j).1 : ℂ) * cw (corner a m n w R j).2 * u *
        ((starRingEnd ℂ) (cw β) * (starRingEnd ℂ) u) = ((corner a m n w R j).1 : ℂ) *
        (cw (corner a m n w R j).2 * (starRingEnd ℂ) (cw β)) * (u * (starRingEnd ℂ) u) by ring, huu, mul_one,
      Complex.re_ofReal_mul, cw_conj]
  have hseg := segment_bounds (P := p.coord l.1 - p.coord a.pCenter) (Q := p.coord l.2 - p.coord a.pCenter)
    (u := cw β * u) (lo := lowest m a.radius eps) (hi := highest m a.radius eps)
    (by rw [norm_mul, norm_cw, hu1, mul_one]) (by rw [c1]; exact hnorm i) (by rw [c2]; exact hnorm (i + 1))
    (by rw [c1, hproj]; exact hb1) (by rw [c2, hproj]; exact hb2) t h0 h1
  have hpt : p.coord (onSegment l t) - p.coord a.pCenter = p.coord l.1 - p.coord a.pCenter +
      t * (p.coord l.2 - p.coord a.pCenter - (p.coord l.1 - p.coord a.pCenter)) := by
    unfold onSegment
    rw [coord_add, coord_mul, coord_sub]; ring
  rw [hpt]
  cases m <;> simp only [lowest, highest] at hseg ⊢ <;> exact ⟨by linarith [hseg.1], by linarith [hseg.2]⟩

end Pygcode
