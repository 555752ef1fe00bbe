import Verif.Props.ArcPath

/-!
# Which arcs are linearized (C57–C59, C62)
-/

namespace Pygcode
open Pl Machine Props

/-! ## C62 -/

/-- The parameters accepted: one of X, Y, Z; either some of I, J, K or an R, not both; R not zero. -/
theorem C62_params (g : GCode) : g.assertArcParams = .ok () ↔
    (∃ l ∈ ['X', 'Y', 'Z'], (g.num? l).isSome) ∧
      Xor (∃ l ∈ ['I', 'J', 'K'], (g.num? l).isSome) (∃ r, g.num? 'R' = some r ∧ r ≠ 0) ∧ g.num? 'R' ≠ some 0 := by
  unfold GCode.assertArcParams GCode.num? Xor
  simp only [List.mem_cons, List.not_mem_nil, or_false, exists_eq_or_imp, exists_eq_left]
  rcases Option.eq_none_or_eq_some (g.param 'X') with h1 | ⟨_, h1⟩ <;>
  rcases Option.eq_none_or_eq_some (g.param 'Y') with h2 | ⟨_, h2⟩ <;>
  rcases Option.eq_none_or_eq_some (g.param 'Z') with h3 | ⟨_, h3⟩ <;>
  rcases Option.eq_none_or_eq_some (g.param 'I') with h4 | ⟨_, h4⟩ <;>
  rcases Option.eq_none_or_eq_some (g.param 'J') with h5 | ⟨_, h5⟩ <;>
  rcases Option.eq_none_or_eq_some (g.param 'K') with h6 | ⟨_, h6⟩ <;>
  rcases Option.eq_none_or_eq_some (g.param 'R') with h7 | ⟨_, h7⟩ <;>
  simp [h1, h2, h3, h4, h5, h6, h7]

/-- The method as it is found on a gcode's class: the check for arcs and their subclasses, and nothing is
checked for any other class. -/
theorem C62_method (g : GCode) :
    g.assertParams = if g.cls.isSub .arcMove then g.assertArcParams else .ok () := by
  have hc : g.cls.checksArc = g.cls.isSub .arcMove :=
    of_decide_eq_true (Cls.forall_of_all (p := fun c => decide (c.checksArc = c.isSub .arcMove)) (by decide +kernel) g.cls)
  have hone : ∀ l : Char, (g.param l).isSome = g.params.any (fun w => w.letter == l) := by
    intro l
    unfold GCode.param
    rw [← Bool.coe_iff_coe, List.find?_isSome, List.any_eq_true]
  unfold GCode.assertParams GCode.assertArcParams
  rw [hc]
  cases g.cls.isSub .arcMove with
  | false => rfl
  | true =>
    have h3 : ∀ a b c : Char, g.params.any (fun w => [a, b, c].contains w.letter) =
        ((g.param a).isSome || (g.param b).isSome || (g.param c).isSome) := by
      intro a b c
      rw [hone, hone, hone, ← Bool.coe_iff_coe]
      simp only [List.any_eq_true, Bool.or_eq_true, List.contains_cons, List.contains_nil, Bool.or_false, beq_iff_eq]
      constructor
      · rintro ⟨x, hx, h | h | h⟩
        exacts [.inl (.inl ⟨x, hx, h⟩), .inl (.inr ⟨x, hx, h⟩), .inr ⟨x, hx, h⟩]
      · rintro ((⟨x, hx, h⟩ | ⟨x, hx, h⟩) | ⟨x, hx, h⟩)
        exacts [⟨x, hx, .inl h⟩, ⟨x, hx, .inr (.inl h)⟩, ⟨x, hx, .inr (.inr h)⟩]
    have h1 : ∀ a : Char, g.params.any (fun w => [a].contains w.letter) = (g.param a).isSome := by
      intro a
      rw [hone]
      congr 1
      funext w
      simp [beq_eq_decide]
    have h4 : ∀ a b c d : Char, g.params.any (fun w => [a, b, c, d].contains w.letter) =
        ((g.param a).isSome || (g.param b).isSome || (g.param c).isSome || (g.param d).isSome) := by
      intro a b c d
      rw [← h3, ← h1 d, ← Bool.coe_iff_coe]
      simp only [List.any_eq_true, Bool.or_eq_true, List.contains_cons, List.contains_nil, Bool.or_false, beq_iff_eq]
      constructor
      · rintro ⟨x, hx, h | h | h | h⟩
        exacts [.inl ⟨x, hx, .inl h⟩, .inl ⟨x, hx, .inr (.inl h)⟩, .inl ⟨x, hx, .inr (.inr h)⟩, .inr ⟨x, hx, h⟩]
      · rintro (⟨x, hx, h | h | h⟩ | ⟨x, hx, h⟩)
        exacts [⟨x, hx, .inl h⟩, ⟨x, hx, .inr (.inl h)⟩, ⟨x, hx, .inr (.inr (.inl h))⟩, ⟨x, hx, .inr (.inr (.inr h))⟩]
    simp only [h1, h3, h4]
    simp [or_assoc, and_assoc]

/-- Rejected parameters are reported by a `NameError`, not by a `GCodeParameterError`. -/
theorem C62_error (g : GCode) (x : Err) (h : g.assertArcParams = .error x) : x = .name := by
  unfold GCode.assertArcParams at h
  simp only at h
  split_ifs at h <;> first | (cases h; rfl) | cases h

/-- An arc passes all checks exactly if its parameters are accepted and, with R, its ends are at least
the error apart and within reach of the radius; with I, J, K the end is always within reach. -/
theorem C62_reach (p : Pl) (g : GCode) (s : V3) (q : Quat) (incr arcIncr : Bool) (e : ℝ) :
    (∃ a, g.arcOf s p.normal q incr arcIncr e = .ok a) ↔
      g.assertArcParams = .ok () ∧ ∀ r : ℚ, g.num? 'R' = some r →
        e ≤ ‖p.coord s - p.coord (g.arcEnd s incr)‖ ∧ ‖p.coord s - p.coord (g.arcEnd s incr)‖ ≤ 2 * |(r : ℝ)| := by
  have hhalf : ‖halfSpan (p.coord s) (p.coord (g.arcEnd s incr))‖ = ‖p.coord s - p.coord (g.arcEnd s incr)‖ / 2 := by
    unfold halfSpan
    rw [norm_div, norm_sub_rev]
    simp
  constructor
  · rintro ⟨a, h⟩
    have F := arcOf_ok p g s q incr arcIncr e a h
    refine ⟨F.params, fun r hr => ?_⟩
    obtain ⟨h1, h2⟩ := F.radiusR r hr
    have h3 := F.reach
    rw [hhalf, h1] at h3
    exact ⟨h2, by linarith⟩
  · rintro ⟨hpar, hR⟩
    unfold GCode.arcOf
    rw [hpar]
    have hsx : p.height (planeProjection s p.normal) = 0 := height_proj p s
    have hex : p.height (planeProjection (g.arcEnd s incr) p.normal) = 0 := height_proj p _
    have hgx : p.height (planeProjection (g.arcCenter s arcIncr) p.normal) = 0 := height_proj p _
    cases hr : g.num? 'R' with
    | some r =>
      obtain ⟨h1, h2⟩ := hR r hr
      simp only [bind, Except.bind, abs_half p s (g.arcEnd s incr), abs_sub_flat p _ _ hsx hex, coord_proj]
      rw [if_neg (not_lt.2 h1)]
      simp only
      rw [if_neg (by rw [hhalf]; push Not; linarith)]
      exact ⟨_, rfl⟩
    | none =>
      simp only [bind, Except.bind, abs_half p s (g.arcEnd s incr), abs_sub_flat p _ _ hsx hgx,
        abs_sub_flat p _ _ hex hgx, coord_proj]
      rw [if_neg]
      · exact ⟨_, rfl⟩
      · rw [hhalf]
        push Not
        have := norm_sub_le_norm_sub_add_norm_sub (p.coord s) (p.coord (g.arcCenter s arcIncr)) (p.coord (g.arcEnd s incr))
        rw [norm_sub_rev (p.coord (g.arcCenter s arcIncr))] at this
        linarith

/-- XY plane, ends apart: exactly which calls finish. -/
theorem C62_done (g : GCode) (start : Position) (m : ArcMethod) (incr arcIncr : Bool) (e : ℝ) (d : ℤ) (s : V3)
    (hs : start.vector = s) (hne : xy.coord s ≠ xy.coord (g.arcEnd s incr)) :
    (∃ vs, linearizeArc g start (some .selectXYPlane) (some m) incr arcIncr e d = (vs, .done)) ↔
      g.cls.isSub .arcMove = true ∧ 0 < e ∧ g.assertArcParams = .ok () ∧ ∀ r : ℚ, g.num? 'R' = some r →
        e ≤ ‖xy.coord s - xy.coord (g.arcEnd s incr)‖ ∧ ‖xy.coord s - xy.coord (g.arcEnd s incr)‖ ≤ 2 * |(r : ℝ)| := by
  constructor
  · rintro ⟨vs, h⟩
    obtain ⟨p, m', s', q, a, ls, D, -⟩ := linearize_done h
    obtain rfl : s = s' := by exact hs.symm.trans D.start
    have hp : p = xy := by
      have := D.plane
      cases p <;> first | rfl | (exact absurd this (by decide))
    subst hp
    exact ⟨D.arc, D.pos, (C62_reach xy g s q incr arcIncr e).1 ⟨a, D.ok⟩⟩
  · rintro ⟨h1, h2, h3⟩
    obtain ⟨a, ha⟩ := (C62_reach xy g s Quat.one incr arcIncr e).2 h3
    obtain ⟨ls, hl, -⟩ := C57_error xy g s _ incr arcIncr e a ha hne h2 (sweeps_xy g s incr arcIncr e a ha) m
    exact ⟨_, done_linearize d ⟨rfl, rfl, hs, h1, h2, rfl, ha, hl⟩⟩

/-! ## C59 -/

theorem err_range (a : Arc) (he : 0 < a.maxError) (hr : 0 < a.radius) : 0 < a.err ∧ a.err ≤ a.radius := by
  unfold Arc.err
  split_ifs with h
  · exact ⟨hr, le_refl _⟩
  · exact ⟨he, not_lt.1 h⟩

/-- With a zero angle: one straight line, or a division by zero. -/
theorem zero_angle (a : Arc) (he : 0 < a.maxError) (hr : 0 < a.radius) (h0 : a.angle = 0) (m : ArcMethod) :
    a.iterVertices m = match m with
      | .inside => .ok [(a.pCenter + (a.pStart - a.pCenter) + a.hStart, a.pEnd + a.hEnd)]
      | .outside => .error .zeroDiv
      | .mid => .error .zeroDiv := by
  have hmax := maxWedge_ok a m he hr
  obtain ⟨hc0, hc1⟩ := wedgeCos_range m (lt_min he hr) (min_le_right a.maxError a.radius)
  have hW : 2 * Real.arccos (wedgeCos m a.radius (min a.maxError a.radius)) ≠ 0 := by
    have := Real.arccos_pos.2 hc1
    positivity
  have hcount : a.wedgeCount m = .ok 0 := by
    unfold Arc.wedgeCount
    rw [hmax, h0]
    simp [bind, Except.bind, divE, hW]
  have hang : a.wedgeAngle m = .error .zeroDiv := by
    unfold Arc.wedgeAngle
    rw [hcount]
    simp [bind, Except.bind, divE]
  cases m with
  | inside =>
    unfold Arc.iterVertices
    rw [hcount]
    simp [Arc.outerRadius, bind, Except.bind, Arc.lines]
  | outside =>
    unfold Arc.iterVertices Arc.outerRadius
    rw [hang]
    rfl
  | mid =>
    unfold Arc.iterVertices Arc.outerRadius
    rw [hang]
    rfl

theorem zero_radius (a : Arc) (he : 0 < a.maxError) (hr : a.radius = 0) (m : ArcMethod) :
    a.iterVertices m = .error .zeroDiv := by
  have herr : a.err = 0 := by unfold Arc.err; rw [hr, if_pos he]
  have hmax : a.maxWedge m = .error .zeroDiv := by
    cases m <;> simp [Arc.maxWedge, hr, herr, divE, bind, Except.bind]
  have hcount : a.wedgeCount m = .error .zeroDiv := by
    unfold Arc.wedgeCount; rw [hmax]; rfl
  have hang : a.wedgeAngle m = .error .zeroDiv := by
    unfold Arc.wedgeAngle; rw [hcount]; rfl
  unfold Arc.iterVertices
  cases m <;> simp only [Arc.outerRadius, hang, hcount] <;> rfl

theorem fmod_zero (m : ℝ) : fmod 0 m = 0 := by unfold fmod; simp

/-- Ends that coincide in the plane, with I, J, K: the centre is moved onto them and the angle is 0. -/
theorem same_ends (p : Pl) (g : GCode) (s : V3) (q : Quat) (incr arcIncr : Bool) (e : ℝ) (a : Arc)
    (F : ArcFacts p g s q incr arcIncr e a) (hsame : p.coord s = p.coord (g.arcEnd s incr)) (hR : g.num? 'R' = none) :
    p.coord a.pCenter = p.coord s ∧ a.radius = ‖p.coord s - p.coord (g.arcCenter s arcIncr)‖ ∧ a.angle = 0 := by
  refine ⟨?_, ?_, ?_⟩
  · rcases F.centerC hR with ⟨h, -⟩ | ⟨h, -⟩ <;> rw [h, ← hsame]
    · exact (center_same _ _).1
    · exact (center_same _ _).2
  · rw [F.radiusC hR, ← hsame]; ring
  · have hse : a.pStart = a.pEnd := by
      rw [Pl.ext_iff p]
      exact ⟨by rw [F.cStart, F.cEnd, hsame], by rw [F.hpStart, F.hpEnd]⟩
    rw [F.angle, hse]
    simp [fmod_zero]

/-- Full circles are not linearized: with the ends at the same point of the plane and any centre, the
inside method yields one straight line to the end and the others raise `ZeroDivisionError`; with the
centre at that point too, all do. -/
theorem C59_refuted (p : Pl) (g : GCode) (start : Position) (m : ArcMethod) (incr arcIncr : Bool) (e : ℝ) (d : ℤ) (s : V3)
    (hs : start.vector = s) (hg : g.cls.isSub .arcMove = true) (he : 0 < e) (hpar : g.assertArcParams = .ok ())
    (hR : g.num? 'R' = none) (hsame : p.coord s = p.coord (g.arcEnd s incr)) :
    linearizeArc g start (some p.cls) (some m) incr arcIncr e d =
      if m = .inside ∧ p.coord (g.arcCenter s arcIncr) ≠ p.coord s then
        (if incr then roundedDeltas d s [g.arcEnd s incr] else [g.arcEnd s incr], .done)
      else ([], .raised .zeroDiv) := by
  obtain ⟨q, hq⟩ := planeQuat_cls p
  obtain ⟨a, ha⟩ := (C62_reach p g s q incr arcIncr e).2 ⟨hpar, fun r hr => by rw [hR] at hr; cases hr⟩
  have F := arcOf_ok p g s q incr arcIncr e a ha
  obtain ⟨h1, h2, h3⟩ := same_ends p g s q incr arcIncr e a F hsame hR
  have he' : 0 < a.maxError := by rw [F.maxError]; exact he
  have hfail : a.iterVertices m = .error .zeroDiv →
      linearizeArc g start (some p.cls) (some m) incr arcIncr e d = ([], .raised .zeroDiv) := by
    intro h
    unfold linearizeArc
    simp only [Option.getD_some]
    rw [if_neg (not_not.2 ⟨hg, planeSelect_cls p, he⟩), hs, planeNormal_cls, hq]
    simp only [ha, h]
  by_cases hc : p.coord (g.arcCenter s arcIncr) = p.coord s
  · rw [if_neg (fun h => h.2 hc)]
    exact hfail (zero_radius a he' (by rw [h2, hc]; simp) m)
  · have hr : 0 < a.radius := by
      rw [h2, norm_pos_iff]
      exact sub_ne_zero.2 (Ne.symm hc)
    have hz := zero_angle a he' hr h3 m
    cases m with
    | inside =>
      rw [if_pos ⟨rfl, hc⟩, done_linearize d ⟨rfl, rfl, hs, hg, he, hq, ha, hz⟩, List.map_singleton, whole_end p F]
    | outside => rw [if_neg (fun h => ArcMethod.noConfusion h.1)]; exact hfail hz
    | mid => rw [if_neg (fun h => ArcMethod.noConfusion h.1)]; exact hfail hz

/-! ## C58 -/

theorem cw_quarter (k : ℤ) : cw (k * (Real.pi / 2)) ^ 2 = 1 ∨ cw (k * (Real.pi / 2)) ^ 2 = -1 := by
  have h : cw (k * (Real.pi / 2)) ^ 2 = (-1) ^ k := by
    unfold cw
    rw [← Complex.exp_nat_mul, show ((2 : ℕ) : ℂ) * -(((k * (Real.pi / 2) : ℝ) : ℂ) * Complex.I) =
      ((-k : ℤ) : ℂ) * (Real.pi * Complex.I) by push_cast; ring, Complex.exp_int_mul, Complex.exp_pi_mul_I, zpow_neg]
    rw [← inv_zpow]; norm_num
  rw [h]
  exact Int.even_or_odd k |>.imp (fun h => h.neg_one_zpow) (fun h => h.neg_one_zpow)

/-- ZX plane: the computed angle takes the start to the end only for arcs of a multiple of a quarter
turn. -/
theorem C58_zx_refuted (g : GCode) (s : V3) (q : Quat) (hq : planeQuat zx.cls = some q) (incr arcIncr : Bool) (e : ℝ)
    (a : Arc) (h : g.arcOf s zx.normal q incr arcIncr e = .ok a)
    (hsw : zx.coord (g.arcEnd s incr) - zx.coord a.pCenter =
      Complex.exp (-(a.angle * Complex.I)) * (zx.coord s - zx.coord a.pCenter)) :
    (zx.coord (g.arcEnd s incr) - zx.coord a.pCenter) ^ 2 = (zx.coord s - zx.coord a.pCenter) ^ 2 ∨
      (zx.coord (g.arcEnd s incr) - zx.coord a.pCenter) ^ 2 = -(zx.coord s - zx.coord a.pCenter) ^ 2 := by
  obtain ⟨k, hk⟩ := C58_zx_quarters g s q hq incr arcIncr e a h
  have h1 : Complex.exp (-(a.angle * Complex.I)) = cw (k * (Real.pi / 2)) := by rw [hk]; rfl
  rw [hsw, h1, mul_pow]
  rcases cw_quarter k with h2 | h2 <;> rw [h2] <;> simp

/-- YZ plane: only for arcs of a multiple of half a turn. -/
theorem C58_yz_refuted (g : GCode) (s : V3) (q : Quat) (hq : planeQuat yz.cls = some q) (incr arcIncr : Bool) (e : ℝ)
    (a : Arc) (h : g.arcOf s yz.normal q incr arcIncr e = .ok a)
    (hsw : yz.coord (g.arcEnd s incr) - yz.coord a.pCenter =
      Complex.exp (-(a.angle * Complex.I)) * (yz.coord s - yz.coord a.pCenter)) :
    yz.coord (g.arcEnd s incr) - yz.coord a.pCenter = yz.coord s - yz.coord a.pCenter ∨
      yz.coord (g.arcEnd s incr) - yz.coord a.pCenter = -(yz.coord s - yz.coord a.pCenter) := by
  obtain ⟨k, hk⟩ := C58_yz_halves g s q hq incr arcIncr e a h
  have h1 : Complex.exp (-(a.angle * Complex.I)) = (-1) ^ k := by
    rw [hk, show -(((k * Real.pi : ℝ) : ℂ) * Complex.I) = ((-k : ℤ) : ℂ) * (Real.pi * Complex.I) by push_cast; ring,
      Complex.exp_int_mul, Complex.exp_pi_mul_I, zpow_neg, ← inv_zpow]
    norm_num
  rw [hsw, h1]
  rcases Int.even_or_odd k with h2 | h2 <;> rw [h2.neg_one_zpow] <;> simp

/-! ## Samples -/

theorem add_mk (a b c x y z : ℝ) : (⟨a, b, c⟩ + ⟨x, y, z⟩ : V3) = ⟨a + x, b + y, c + z⟩ := rfl
theorem sub_mk (a b c x y z : ℝ) : (⟨a, b, c⟩ - ⟨x, y, z⟩ : V3) = ⟨a - x, b - y, c - z⟩ := rfl

/-- `G3 X0 Y1 I-1`, counter-clockwise. -/
def sampleArc : GCode := ⟨.arcMoveCCW, ⟨'G', .num 3⟩, [⟨'X', .num 0⟩, ⟨'Y', .num 1⟩, ⟨'I', .num (-1)⟩], false⟩
/-- `G2 X0 Y1 R-1`. -/
def sampleArcR : GCode := ⟨.arcMoveCW, ⟨'G', .num 2⟩, [⟨'X', .num 0⟩, ⟨'Y', .num 1⟩, ⟨'R', .num (-1)⟩], false⟩
/-- `G2 X0 I1`, a full circle from the origin. -/
def sampleCircle : GCode := ⟨.arcMoveCW, ⟨'G', .num 2⟩, [⟨'X', .num 0⟩, ⟨'I', .num 1⟩], false⟩
/-- `G3 Y0 Z1 J-1`, a quarter of a circle in the YZ plane. -/
def sampleArcYZ : GCode := ⟨.arcMoveCCW, ⟨'G', .num 3⟩, [⟨'Y', .num 0⟩, ⟨'Z', .num 1⟩, ⟨'J', .num (-1)⟩], false⟩

/-- At (x, y, z), in mm. -/
def at3 (x y z : ℚ) : Position :=
  ⟨{.X, .Y, .Z}, .mm, fun | .X => x | .Y => y | .Z => z | _ => 0⟩

theorem at3_vector (x y z : ℚ) : (at3 x y z).vector = ⟨x, y, z⟩ := by
  rfl

/-- The quarter circle in the XY plane from (1, 0): accepted, with the centre at the origin. -/
example (m : ArcMethod) : ∃ vs, linearizeArc sampleArc (at3 1 0 0) none (some m) false true (1 / 100) 3 = (vs, .done) ∧
    vs.getLast? = some ⟨0, 1, 0⟩ := by
  have hs := at3_vector 1 0 0
  have hE : sampleArc.arcEnd ⟨(1 : ℚ), (0 : ℚ), (0 : ℚ)⟩ false = ⟨0, 1, 0⟩ := by
    simp [GCode.arcEnd, sampleArc, GCode.num?, GCode.param, Word.num]
  have h1 : sampleArc.assertArcParams = .ok () := by decide +kernel
  obtain ⟨vs, h⟩ := (C62_done sampleArc _ m false true (1 / 100) 3 _ hs (by
    rw [hE]; intro h; have := congrArg Complex.re h; simp [Pl.coord] at this)).2
    ⟨by decide +kernel, by norm_num, h1, fun r hr => by simp [sampleArc, GCode.num?, GCode.param] at hr⟩
  refine ⟨vs, h, ?_⟩
  obtain ⟨v, hv, hx, hy, hz⟩ := C54_end _ _ _ _ _ _ _ _ h
  rw [hv]
  congr 1
  apply V3.ext
  · rw [hx]; simp [sampleArc, GCode.num?, GCode.param, Word.num]
  · rw [hy]; simp [sampleArc, GCode.num?, GCode.param, Word.num]
  · rw [hz]; simp [sampleArc, GCode.num?, GCode.param, Word.num, at3]

/-- A machine executing it ends there, too. -/
example : ((newWith xyz sampleMode).process sampleArc).1.pos.map (fun p => (p.val .X, p.val .Y, p.val .Z)) =
    .ok (0, 1, 0) := by decide +kernel

/-- The path of the inside method stays between 99/100 and 1 from the origin. -/
example : ∃ vs, linearizeArc sampleArc (at3 1 0 0) none (some .inside) false true (1 / 100) 3 = (vs, .done) ∧
    ∀ l ∈ segments ⟨(1 : ℚ), (0 : ℚ), (0 : ℚ)⟩ vs, ∀ t, 0 ≤ t → t ≤ 1 →
      99 / 100 ≤ ‖xy.coord (onSegment l t)‖ ∧ ‖xy.coord (onSegment l t)‖ ≤ 1 := by
  have hs := at3_vector 1 0 0
  have hE : sampleArc.arcEnd ⟨(1 : ℚ), (0 : ℚ), (0 : ℚ)⟩ false = ⟨0, 1, 0⟩ := by
    simp [GCode.arcEnd, sampleArc, GCode.num?, GCode.param, Word.num]
  have hne : xy.coord ⟨(1 : ℚ), (0 : ℚ), (0 : ℚ)⟩ ≠ xy.coord (sampleArc.arcEnd ⟨(1 : ℚ), (0 : ℚ), (0 : ℚ)⟩ false) := by
    rw [hE]; intro h; have := congrArg Complex.re h; simp [Pl.coord] at this
  have hC : xy.coord (sampleArc.arcCenter ⟨(1 : ℚ), (0 : ℚ), (0 : ℚ)⟩ true) = 0 := by
    apply Complex.ext <;>
      simp [GCode.arcCenter, sampleArc, GCode.num?, GCode.param, Word.num, Pl.coord, add_mk]
  have hS : xy.coord ⟨(1 : ℚ), (0 : ℚ), (0 : ℚ)⟩ = 1 := by
    apply Complex.ext <;> simp [Pl.coord]
  have hI : xy.coord ⟨0, 1, 0⟩ = Complex.I := rfl
  have hR : sampleArc.num? 'R' = none := by decide +kernel
  obtain ⟨vs, h⟩ := (C62_done sampleArc _ .inside false true (1 / 100) 3 _ hs hne).2
    ⟨by decide +kernel, by norm_num, by decide +kernel, fun r hr => by rw [hR] at hr; cases hr⟩
  refine ⟨vs, h, ?_⟩
  obtain ⟨c, r, -, h1, -, -, h2, h3⟩ := C57_path _ _ _ (.inr rfl) _ _ _ _ _ _ hs hne h
  have hc := (h2 hR).fits (by rw [hE, hC, hS, hI]; simp)
  rw [hC] at hc
  subst hc
  rw [hS, sub_zero, norm_one] at h1
  subst h1
  intro l hl t h0 h1
  have := h3 l hl t h0 h1
  simp only [sub_zero] at this
  exact ⟨by linarith [this.1], this.2⟩

/-- Of the two arcs of radius 1 from (1, 0) to (0, 1), a negative R takes the larger. -/
example : ∃ a, sampleArcR.arcOf ⟨1, 0, 0⟩ xy.normal Quat.one false true (1 / 100) = .ok a ∧ a.radius = 1 ∧
    Real.pi ≤ |a.angle| := by
  have hE : sampleArcR.arcEnd ⟨1, 0, 0⟩ false = ⟨0, 1, 0⟩ := by
    simp [GCode.arcEnd, sampleArcR, GCode.num?, GCode.param, Word.num]
  have hR : sampleArcR.num? 'R' = some (-1) := by decide +kernel
  have hd : ‖xy.coord ⟨1, 0, 0⟩ - xy.coord ⟨0, 1, 0⟩‖ = √2 := by
    rw [Complex.norm_eq_sqrt_sq_add_sq]
    simp [Pl.coord]
    norm_num
  have h2 : √2 ≤ 2 := by
    rw [Real.sqrt_le_iff]; norm_num
  have h1 : 1 / 100 ≤ √2 := by
    rw [Real.le_sqrt' (by norm_num)]; norm_num
  obtain ⟨a, ha⟩ := (C62_reach xy sampleArcR ⟨1, 0, 0⟩ Quat.one false true (1 / 100)).2 ⟨by decide +kernel, fun r hr => by
    rw [hR] at hr
    rw [hE, hd, ← Option.some.inj hr]
    push_cast
    rw [_root_.abs_neg, abs_one, mul_one]
    exact ⟨h1, h2⟩⟩
  refine ⟨a, ha, ?_, ?_⟩
  · rw [C56_radius xy _ _ _ _ _ _ _ ha _ hR]; simp
  · refine (C58_half_partial _ _ _ _ _ _ ha ?_ _ hR).2 (by norm_num)
    rw [hE]; intro h; have := congrArg Complex.re h; simp [Pl.coord] at this

/-- The same end point with a radius that is too small. -/
example (q : Quat) : ¬ ∃ a, (⟨.arcMoveCW, ⟨'G', .num 2⟩, [⟨'X', .num 3⟩, ⟨'R', .num 1⟩], false⟩ : GCode).arcOf ⟨0, 0, 0⟩
    xy.normal q false true (1 / 100) = .ok a := by
  rw [C62_reach]
  rintro ⟨-, h⟩
  have := (h 1 (by decide +kernel)).2
  simp [GCode.arcEnd, GCode.num?, GCode.param, Word.num, Pl.coord] at this
  rw [Complex.norm_eq_sqrt_sq_add_sq, Real.sqrt_le_iff] at this
  norm_num at this

/-- `G2 X0 I1` at the origin: no circle. -/
example : linearizeArc sampleCircle (at3 0 0 0) (some .selectXYPlane) (some .mid) false true (1 / 100) 3 =
      ([], .raised .zeroDiv) ∧
    linearizeArc sampleCircle (at3 0 0 0) (some .selectXYPlane) (some .inside) false true (1 / 100) 3 =
      ([⟨0, 0, 0⟩], .done) := by
  have hE : sampleCircle.arcEnd ⟨(0 : ℚ), (0 : ℚ), (0 : ℚ)⟩ false = ⟨0, 0, 0⟩ := by
    simp [GCode.arcEnd, sampleCircle, GCode.num?, GCode.param, Word.num]
  have h := fun m => C59_refuted xy sampleCircle (at3 0 0 0) m false true (1 / 100) 3 _ (at3_vector 0 0 0)
    (by decide +kernel) (by norm_num) (by decide +kernel) (by decide +kernel) (by rw [hE]; simp)
  constructor
  · rw [show Cls.selectXYPlane = xy.cls from rfl, h, if_neg (by simp)]
  · rw [show Cls.selectXYPlane = xy.cls from rfl, h, if_pos, hE]
    · rfl
    · refine ⟨rfl, fun h0 => ?_⟩
      have := congrArg Complex.re h0
      simp [GCode.arcCenter, sampleCircle, GCode.num?, GCode.param, Word.num, Pl.coord, add_mk] at this

/-- A quarter of a unit circle in the YZ plane about the origin becomes one straight line for an error
of 1/10: its middle is √½ from the centre. -/
theorem C57_yz_refuted : ∃ vs, linearizeArc sampleArcYZ (at3 0 1 0) (some .selectYZPlane) (some .inside) false true (1 / 10) 3 =
      (vs, .done) ∧ yz.coord (sampleArcYZ.arcCenter ⟨0, 1, 0⟩ true) = 0 ∧
    ∃ l ∈ segments ⟨0, 1, 0⟩ vs, ‖yz.coord (onSegment l (1 / 2))‖ ^ 2 = 1 / 2 := by
  obtain ⟨q, hq, hap⟩ := quat_yz
  have hE : sampleArcYZ.arcEnd ⟨0, 1, 0⟩ false = ⟨0, 0, 1⟩ := by
    simp [GCode.arcEnd, sampleArcYZ, GCode.num?, GCode.param, Word.num]
  have hC : yz.coord (sampleArcYZ.arcCenter ⟨0, 1, 0⟩ true) = 0 := by
    apply Complex.ext <;>
      simp [GCode.arcCenter, sampleArcYZ, GCode.num?, GCode.param, Word.num, Pl.coord, add_mk]
  have hS : yz.coord ⟨0, 1, 0⟩ = 1 := rfl
  have hI : yz.coord ⟨0, 0, 1⟩ = Complex.I := rfl
  have hR : sampleArcYZ.num? 'R' = none := by decide +kernel
  obtain ⟨a, ha⟩ := (C62_reach yz sampleArcYZ ⟨0, 1, 0⟩ q false true (1 / 10)).2
    ⟨by decide +kernel, fun r hr => by rw [hR] at hr; cases hr⟩
  have F := arcOf_ok yz _ _ q _ _ _ a ha
  have hne : yz.coord ⟨0, 1, 0⟩ ≠ yz.coord (sampleArcYZ.arcEnd ⟨0, 1, 0⟩ false) := by
    rw [hE, hS, hI]; intro h; have := congrArg Complex.re h; simp at this
  obtain ⟨h1, h2⟩ := C56_given yz _ _ q _ _ _ a ha hne hR (by rw [hC, hE, hS, hI]; simp)
  rw [hC, hS, sub_zero, norm_one] at h2
  rw [hC] at h1
  have hc : a.pCenter = ⟨0, 0, 0⟩ := by
    rw [Pl.ext_iff yz, h1, F.hpCenter]; exact ⟨rfl, rfl⟩
  have hs' : a.pStart = ⟨0, 1, 0⟩ := by
    rw [Pl.ext_iff yz, F.cStart, F.hpStart]; exact ⟨rfl, rfl⟩
  have he' : a.pEnd = ⟨0, 0, 1⟩ := by
    rw [Pl.ext_iff yz, F.cEnd, F.hpEnd, hE]; exact ⟨rfl, rfl⟩
  have hang : a.angle = 0 := by
    rw [F.angle, hc, hs', he', hap, hap]
    have e1 : atan2 ((0 : ℝ) - 0) (0 - 0) = 0 := by
      unfold atan2
      rw [sub_zero, show (⟨0, 0⟩ : ℂ) = 0 from rfl, Complex.arg_zero]
    have e2 : atan2 ((0 : ℝ) - 0) (1 - 0) = 0 := by
      unfold atan2
      rw [sub_zero, sub_zero, show (⟨1, 0⟩ : ℂ) = 1 from rfl, Complex.arg_one]
    have : sampleArcYZ.cls.isSub .arcMoveCW = false := by decide +kernel
    rw [this]
    show -fmod (atan2 ((0 : ℝ) - 0) (1 - 0) - atan2 ((0 : ℝ) - 0) (0 - 0)) _ = 0
    rw [e1, e2, sub_zero, fmod_zero, neg_zero]
  have hz := zero_angle a (by rw [F.maxError]; norm_num) (by rw [h2]; norm_num) hang .inside
  have hs : (at3 0 1 0).vector = ⟨0, 1, 0⟩ := by rw [at3_vector]; simp
  have hd := done_linearize 3 (plane := some .selectYZPlane) ⟨rfl, rfl, hs, by decide +kernel, by norm_num, hq, ha, hz⟩
  rw [List.map_singleton, whole_end yz F, hE, if_neg (by decide)] at hd
  refine ⟨_, hd, hC, (⟨0, 1, 0⟩, ⟨0, 0, 1⟩), by simp [segments], ?_⟩
  rw [Complex.sq_norm, Complex.normSq_apply]
  simp [Pl.coord, onSegment, V3.mul, add_mk, sub_mk]
  norm_num

/-- Its computed angle does not take the start to the end. -/
example (q : Quat) (hq : planeQuat yz.cls = some q) : ∃ a, sampleArcYZ.arcOf ⟨0, 1, 0⟩ yz.normal q false true (1 / 10) = .ok a ∧
    ¬ Sweeps yz a := by
  have hE : sampleArcYZ.arcEnd ⟨0, 1, 0⟩ false = ⟨0, 0, 1⟩ := by
    simp [GCode.arcEnd, sampleArcYZ, GCode.num?, GCode.param, Word.num]
  have hC : yz.coord (sampleArcYZ.arcCenter ⟨0, 1, 0⟩ true) = 0 := by
    apply Complex.ext <;>
      simp [GCode.arcCenter, sampleArcYZ, GCode.num?, GCode.param, Word.num, Pl.coord, add_mk]
  have hS : yz.coord ⟨0, 1, 0⟩ = 1 := rfl
  have hI : yz.coord ⟨0, 0, 1⟩ = Complex.I := rfl
  have hR : sampleArcYZ.num? 'R' = none := by decide +kernel
  obtain ⟨a, ha⟩ := (C62_reach yz sampleArcYZ ⟨0, 1, 0⟩ q false true (1 / 10)).2
    ⟨by decide +kernel, fun r hr => by rw [hR] at hr; cases hr⟩
  have F := arcOf_ok yz _ _ q _ _ _ a ha
  have hne : yz.coord ⟨0, 1, 0⟩ ≠ yz.coord (sampleArcYZ.arcEnd ⟨0, 1, 0⟩ false) := by
    rw [hE, hS, hI]; intro h; have := congrArg Complex.re h; simp at this
  obtain ⟨h1, h2⟩ := C56_given yz _ _ q _ _ _ a ha hne hR (by rw [hC, hE, hS, hI]; simp)
  refine ⟨a, ha, fun h => ?_⟩
  unfold Sweeps at h
  rw [F.cStart, F.cEnd] at h
  have h3 := C58_yz_refuted _ _ q hq _ _ _ a ha h
  rw [h1, hC, hE, hS, hI, sub_zero, sub_zero] at h3
  rcases h3 with h3 | h3 <;> have := congrArg Complex.re h3 <;> simp at this

/-- Three steps of 2/5, rounded to whole units: the rounding errors do not add up. -/
example : roundedDeltas 0 ⟨0, 0, 0⟩ [⟨2 / 5, 0, 0⟩, ⟨4 / 5, 0, 0⟩, ⟨6 / 5, 0, 0⟩] = [⟨0, 0, 0⟩, ⟨1, 0, 0⟩, ⟨0, 0, 0⟩] := by
  have f0 : ⌊(2 / 5 : ℝ)⌋ = 0 := by rw [Int.floor_eq_iff]; norm_num
  have f1 : ⌊(4 / 5 : ℝ)⌋ = 0 := by rw [Int.floor_eq_iff]; norm_num
  have f2 : ⌊(1 / 5 : ℝ)⌋ = 0 := by rw [Int.floor_eq_iff]; norm_num
  have r0 : roundTo 0 0 = 0 := by simp [roundTo]
  have r1 : roundTo 0 (2 / 5) = 0 := by simp [roundTo, f0]; norm_num
  have r2 : roundTo 0 (4 / 5) = 1 := by simp [roundTo, f1]; norm_num
  have r3 : roundTo 0 (1 / 5) = 0 := by simp [roundTo, f2]; norm_num
  simp only [roundedDeltas, add_mk, sub_mk, sub_zero, add_zero, r0, r1, r2]
  norm_num [r3, r0, r2]

/-- `G3 X0 Y1 Z5 I-1`: the path climbs from 0 to 5 and never leaves that range. -/
example (m : ArcMethod) : ∃ a vs, (⟨.arcMoveCCW, ⟨'G', .num 3⟩, [⟨'X', .num 0⟩, ⟨'Y', .num 1⟩, ⟨'Z', .num 5⟩,
      ⟨'I', .num (-1)⟩], false⟩ : GCode).arcOf ⟨1, 0, 0⟩ xy.normal Quat.one false true (1 / 100) = .ok a ∧
    a.iterVertices m = .ok (segments ⟨1, 0, 0⟩ vs) ∧ ∀ v ∈ vs, 0 < v.z ∧ v.z ≤ 5 := by
  set g : GCode := ⟨.arcMoveCCW, ⟨'G', .num 3⟩, [⟨'X', .num 0⟩, ⟨'Y', .num 1⟩, ⟨'Z', .num 5⟩, ⟨'I', .num (-1)⟩], false⟩ with hg
  have hE : g.arcEnd ⟨1, 0, 0⟩ false = ⟨0, 1, 5⟩ := by
    simp [hg, GCode.arcEnd, GCode.num?, GCode.param, Word.num]
  have hR : g.num? 'R' = none := by decide +kernel
  have hne : xy.coord ⟨1, 0, 0⟩ ≠ xy.coord (g.arcEnd ⟨1, 0, 0⟩ false) := by
    rw [hE]; intro h; have := congrArg Complex.re h; simp [Pl.coord] at this
  obtain ⟨a, ha⟩ := (C62_reach xy g ⟨1, 0, 0⟩ Quat.one false true (1 / 100)).2
    ⟨by decide +kernel, fun r hr => by rw [hR] at hr; cases hr⟩
  have F := arcOf_ok xy _ _ _ _ _ _ a ha
  have hang := angle_ne xy a (sweeps_xy _ _ _ _ _ a ha) (by rw [F.cStart, F.cEnd]; exact hne)
  obtain ⟨vs, fs, h1, h2, -, -, h3⟩ := C61_helix xy _ _ _ _ _ _ a ha hne (by norm_num) hang m
  refine ⟨a, vs, ha, h1, fun v hv => ?_⟩
  obtain ⟨i, hi, hvi⟩ := List.mem_iff_getElem.1 hv
  obtain ⟨h4, h5, h6, -⟩ := h3 i v fs[i] (by rw [List.getElem?_eq_getElem hi, hvi]) (List.getElem?_eq_getElem (h2 ▸ hi))
  rw [hE] at h6
  have h7 : v.z = 0 + fs[i] * (5 - 0) := h6
  constructor <;> linarith

end Pygcode
