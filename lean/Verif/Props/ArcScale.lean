import Verif.Props.ArcSymmetry

/-!
# Scaled, turned and mirrored arcs (C105)

An arc drawn at another scale, turned, or mirrored is replaced by the same lines, at that scale, turned, or mirrored.
-/

namespace Pygcode
open Pl Machine Props

/-! ## Scaled arcs -/

/-- `g'` is the arc `g` at the scale `k`: all coordinates, offsets and the radius are `k` times as long. -/
structure ScaledArc (k : ℚ) (g g' : GCode) : Prop where
  cls : g'.cls = g.cls
  words : ∀ l, (g'.param l).isSome = (g.param l).isSome
  lengths : ∀ l, l ∈ ['X', 'Y', 'Z', 'I', 'J', 'K', 'R'] → g'.num? l = (g.num? l).map (k * ·)

section
variable {k : ℝ} (hk : 0 < k) (a b v : V3)

theorem mul_comp (k : ℝ) : (a.mul k).x = a.x * k ∧ (a.mul k).y = a.y * k ∧ (a.mul k).z = a.z * k := ⟨rfl, rfl, rfl⟩

theorem sub_mul_scale (k : ℝ) : a.mul k - b.mul k = (a - b).mul k := by
  ext <;> simp only [v3_comp, mul_comp] <;> ring

theorem add_mul_scale (k : ℝ) : a.mul k + b.mul k = (a + b).mul k := by
  ext <;> simp only [v3_comp, mul_comp] <;> ring

theorem mul_mul_scale (k c : ℝ) : (a.mul k).mul c = (a.mul c).mul k := by
  ext <;> simp only [mul_comp] <;> ring

theorem mul_scale (k c : ℝ) : a.mul (c * k) = (a.mul c).mul k := by
  ext <;> simp only [mul_comp] <;> ring

theorem dot_scale (k : ℝ) : (a.mul k).dot b = a.dot b * k := by
  simp only [V3.dot, mul_comp]; ring

theorem proj_scale (k : ℝ) (n : V3) : planeProjection (a.mul k) n = (planeProjection a n).mul k := by
  unfold planeProjection
  simp only [dot_scale, mul_scale, sub_mul_scale]

theorem apply_scale (k : ℝ) (q : Quat) : q.apply (a.mul k) = (q.apply a).mul k := by
  ext <;> simp only [Quat.apply, mul_comp] <;> ring

include hk in
theorem abs_scale : (a.mul k).abs = a.abs * k := by
  unfold V3.abs
  simp only [mul_comp]
  rw [show (a.x * k) ^ 2 + (a.y * k) ^ 2 + (a.z * k) ^ 2 = (a.x ^ 2 + a.y ^ 2 + a.z ^ 2) * k ^ 2 by ring,
    Real.sqrt_mul (by positivity), Real.sqrt_sq hk.le]

include hk in
theorem normalized_scale : (a.mul k).normalized = a.normalized.mul 1 := by
  unfold V3.normalized
  rw [abs_scale hk]
  by_cases h : a.abs = 0
  · rw [if_pos (by rw [h, zero_mul]), if_pos h]
    have h' : a.x ^ 2 + a.y ^ 2 + a.z ^ 2 = 0 := by
      have := (Real.sqrt_eq_zero (by positivity)).1 h
      exact this
    have hx : a.x = 0 := by nlinarith [sq_nonneg a.x, sq_nonneg a.y, sq_nonneg a.z]
    have hy : a.y = 0 := by nlinarith [sq_nonneg a.x, sq_nonneg a.y, sq_nonneg a.z]
    have hz : a.z = 0 := by nlinarith [sq_nonneg a.x, sq_nonneg a.y, sq_nonneg a.z]
    ext <;> simp only [mul_comp, hx, hy, hz] <;> ring
  · rw [if_neg (mul_ne_zero h hk.ne'), if_neg h]
    ext <;> simp only [mul_comp] <;> rw [mul_div_mul_right _ _ hk.ne', mul_one]

theorem mul_one_v3 : a.mul 1 = a := by ext <;> simp only [mul_comp] <;> ring

include hk in
theorem atan2_scale (y x : ℝ) : atan2 (y * k) (x * k) = atan2 y x := by
  unfold atan2
  rw [show (⟨x * k, y * k⟩ : ℂ) = (k : ℂ) * ⟨x, y⟩ by apply Complex.ext <;> simp [mul_comm]]
  exact Complex.arg_real_mul _ hk

include hk in
theorem sqrt_scale (r m : ℝ) : √((r * k) ^ 2 - (m * k) ^ 2) = √(r ^ 2 - m ^ 2) * k := by
  rw [show (r * k) ^ 2 - (m * k) ^ 2 = (r ^ 2 - m ^ 2) * k ^ 2 by ring, Real.sqrt_mul' _ (by positivity), Real.sqrt_sq hk.le]

end

/-- The arc at the scale `k`. -/
noncomputable def Arc.scale (a : Arc) (k : ℝ) : Arc :=
  { a with
    maxError := a.maxError * k
    pStart := a.pStart.mul k
    pEnd := a.pEnd.mul k
    pCenter := a.pCenter.mul k
    radius := a.radius * k
    hStart := a.hStart.mul k
    hEnd := a.hEnd.mul k }

section
variable {k : ℚ} {g g' : GCode} (h : ScaledArc k g g') (hk : 0 < k)

include h in
theorem arcEnd_scaled (s : V3) (incr : Bool) : g'.arcEnd (s.mul k) incr = (g.arcEnd s incr).mul k := by
  unfold GCode.arcEnd
  rw [h.lengths 'X' (by decide), h.lengths 'Y' (by decide), h.lengths 'Z' (by decide)]
  have hm : ∀ v : ℚ, ((k * v : ℚ) : ℝ) = v * k := by intro v; push_cast; ring
  cases incr <;> simp only [Bool.false_eq_true, if_false, if_true] <;>
    (ext <;> simp only [v3_comp, mul_comp]
     · cases g.num? 'X' <;> simp [hm] <;> ring
     · cases g.num? 'Y' <;> simp [hm] <;> ring
     · cases g.num? 'Z' <;> simp [hm] <;> ring)

include h in
theorem arcCenter_scaled (s : V3) (incr : Bool) : g'.arcCenter (s.mul k) incr = (g.arcCenter s incr).mul k := by
  unfold GCode.arcCenter
  rw [h.lengths 'I' (by decide), h.lengths 'J' (by decide), h.lengths 'K' (by decide)]
  have hm : ∀ v : ℚ, ((k * v : ℚ) : ℝ) = v * k := by intro v; push_cast; ring
  cases incr <;> simp only [Bool.false_eq_true, if_false, if_true] <;>
    (ext <;> simp only [v3_comp, mul_comp]
     · cases g.num? 'I' <;> simp [hm] <;> ring
     · cases g.num? 'J' <;> simp [hm] <;> ring
     · cases g.num? 'K' <;> simp [hm] <;> ring)

include h hk in
theorem assert_scaled : g'.assertArcParams = g.assertArcParams := by
  unfold GCode.assertArcParams
  have : (g'.num? 'R' = some 0) = (g.num? 'R' = some 0) := by
    rw [h.lengths 'R' (by decide)]
    cases g.num? 'R' with
    | none => simp
    | some r => simp [hk.ne']
  simp only [h.words, this]

include h hk in
theorem arcOf_scaled (s : V3) (n : V3) (q : Quat) (incr arcIncr : Bool) (e : ℝ) :
    g'.arcOf (s.mul k) n q incr arcIncr (e * k) = (g.arcOf s n q incr arcIncr e).map (fun a => a.scale k) := by
  have hk' : (0 : ℝ) < k := by exact_mod_cast hk
  unfold GCode.arcOf
  rw [arcEnd_scaled h, arcCenter_scaled h, assert_scaled h hk, h.lengths 'R' (by decide), h.cls]
  simp only [proj_scale, sub_mul_scale, abs_scale hk', dot_scale, mul_mul_scale _ _ (1 / 2 : ℝ), normalized_scale hk', mul_one_v3]
  cases g.assertArcParams with
  | error e => rfl
  | ok u =>
    simp only [bind, Except.bind]
    cases g.num? 'R' with
    | some r =>
      have hr : |((k * r : ℚ) : ℝ)| = |(r : ℝ)| * k := by
        push_cast; rw [abs_mul, abs_of_pos hk', mul_comm]
      have hr0 : (k * r < 0) = (r < 0) := by
        simp only [eq_iff_iff]
        constructor
        · intro h; by_contra h'; exact absurd (mul_nonneg hk.le (not_lt.1 h')) (not_le.2 h)
        · intro h; exact mul_neg_of_pos_of_neg hk h
      simp only [Option.map_some, mul_lt_mul_iff_left₀ hk']
      by_cases h1 : (planeProjection s n - planeProjection (g.arcEnd s incr) n).abs < e
      · simp only [if_pos h1]; rfl
      · simp only [if_neg h1, hr, hr0, mul_lt_mul_iff_left₀ hk', sqrt_scale hk', mul_scale _ (k : ℝ), add_mul_scale, sub_mul_scale]
        split_ifs <;> first | rfl |
          (simp only [sub_mul_scale, apply_scale, mul_comp, atan2_scale hk', Except.map]; rfl)
    | none =>
      have hrad : ∀ x y : ℝ, (x * k + y * k) / 2 = (x + y) / 2 * k := by intro x y; ring
      simp only [Option.map_none, hrad, mul_lt_mul_iff_left₀ hk', sqrt_scale hk', mul_scale _ (k : ℝ), add_mul_scale, sub_mul_scale,
        abs_scale hk']
      split_ifs <;> first | rfl |
          (simp only [sub_mul_scale, apply_scale, mul_comp, atan2_scale hk', Except.map]; rfl)

end

theorem divE_scale {k : ℝ} (hk : 0 < k) (x y : ℝ) : divE (x * k) (y * k) = divE x y := by
  unfold divE
  by_cases h : y = 0
  · rw [if_pos (by rw [h, zero_mul]), if_pos h]
  · rw [if_neg (mul_ne_zero h hk.ne'), if_neg h, mul_div_mul_right _ _ hk.ne']

theorem err_scale {k : ℝ} (hk : 0 < k) (a : Arc) : (a.scale k).err = a.err * k := by
  unfold Arc.err
  simp only [Arc.scale, mul_lt_mul_iff_left₀ hk]
  split_ifs <;> rfl

theorem maxWedge_scale {k : ℝ} (hk : 0 < k) (a : Arc) (m : ArcMethod) : (a.scale k).maxWedge m = a.maxWedge m := by
  have hr : (a.scale k).radius = a.radius * k := rfl
  cases m <;> simp only [Arc.maxWedge, err_scale hk, hr]
  · rw [← sub_mul, divE_scale hk]
  · rw [← add_mul, divE_scale hk]
  · rw [show a.err * k / 2 = a.err / 2 * k by ring, ← sub_mul, ← add_mul, divE_scale hk]

theorem wedgeCount_scale {k : ℝ} (hk : 0 < k) (a : Arc) (m : ArcMethod) : (a.scale k).wedgeCount m = a.wedgeCount m := by
  unfold Arc.wedgeCount
  rw [maxWedge_scale hk]; rfl

theorem wedgeAngle_scale {k : ℝ} (hk : 0 < k) (a : Arc) (m : ArcMethod) : (a.scale k).wedgeAngle m = a.wedgeAngle m := by
  unfold Arc.wedgeAngle
  rw [wedgeCount_scale hk]; rfl

theorem outerRadius_scale {k : ℝ} (hk : 0 < k) (a : Arc) (m : ArcMethod) :
    (a.scale k).outerRadius m = (a.outerRadius m).map (· * k) := by
  have hr : (a.scale k).radius = a.radius * k := rfl
  cases m <;> simp only [Arc.outerRadius, wedgeAngle_scale hk, hr, bind, Except.bind]
  · rfl
  · cases a.wedgeAngle .outside with
    | error x => rfl
    | ok w =>
      simp only [divE]
      split_ifs
      · rfl
      · simp only [Except.map, mul_div_right_comm, abs_mul, abs_of_pos hk]
  · cases a.wedgeAngle .mid with
    | error x => rfl
    | ok w =>
      simp only [Except.map]
      congr 1
      ring

theorem vertices_scaled {k : ℝ} (hk : 0 < k) (a : Arc) (m : ArcMethod) :
    (a.scale k).iterVertices m = (a.iterVertices m).map (fun ls => ls.map (fun l => (l.1.mul k, l.2.mul k))) := by
  have hs : (a.scale k).pStart - (a.scale k).pCenter = (a.pStart - a.pCenter).mul k := sub_mul_scale _ _ _
  have hf : (a.scale k).pCenter + (a.pStart - a.pCenter).mul k + (a.scale k).hStart =
      (a.pCenter + (a.pStart - a.pCenter) + a.hStart).mul k := by
    ext <;> simp only [v3_comp, mul_comp, Arc.scale] <;> ring
  have he : (a.scale k).pEnd + (a.scale k).hEnd = (a.pEnd + a.hEnd).mul k := add_mul_scale _ _ _
  have hv : ∀ w (o : V3) i, (a.scale k).vertex m w (o.mul k) i = (a.vertex m w o i).mul k := by
    intro w o i
    unfold Arc.vertex
    simp only [Arc.scale, apply_scale, sub_mul_scale, add_mul_scale, mul_mul_scale _ k]
  have hl : ∀ (f : V3) (es : List V3), Arc.lines (f.mul k) (es.map (·.mul k)) =
      (Arc.lines f es).map (fun l => (l.1.mul k, l.2.mul k)) := by
    intro f es
    induction es generalizing f with
    | nil => rfl
    | cons x es ih => simp [Arc.lines, ih]
  unfold Arc.iterVertices
  simp only [hs, outerRadius_scale hk, wedgeCount_scale hk, wedgeAngle_scale hk, hf, he, bind, Except.bind, normalized_scale hk, mul_one_v3]
  cases a.outerRadius m with
  | error x => rfl
  | ok R =>
    simp only [Except.map, mul_scale]
    cases a.wedgeCount m with
    | error x => rfl
    | ok n =>
      simp only
      split_ifs with h
      · exact congrArg Except.ok (hl _ [_])
      · cases a.wedgeAngle m with
        | error x => rfl
        | ok w =>
          simp only
          rw [← hl, List.map_append, List.map_map, List.map_singleton]
          congr 3
          exact List.map_congr_left (fun i _ => hv _ _ i)

/-- Rounding of a value at another power of ten. -/
theorem roundTo_scale (d j : ℤ) (x : ℝ) : roundTo (d - j) (x * 10 ^ j) = roundTo d x * 10 ^ j := by
  have h10 : (10 : ℝ) ≠ 0 := by norm_num
  have h1 : x * 10 ^ j * 10 ^ (d - j) = x * 10 ^ d := by
    rw [mul_assoc, ← zpow_add₀ h10]; congr 2; ring
  unfold roundTo
  simp only [h1]
  rw [zpow_sub₀ h10, div_div_eq_mul_div, mul_div_right_comm]

theorem deltas_scaled (d j : ℤ) (vs : List V3) : ∀ s : V3, roundedDeltas (d - j) (s.mul (10 ^ j)) (vs.map (·.mul (10 ^ j))) =
    (roundedDeltas d s vs).map (·.mul (10 ^ j)) := by
  induction vs with
  | nil => intro s; rfl
  | cons v vs ih =>
    intro s
    simp only [List.map_cons, roundedDeltas, sub_mul_scale, mul_comp, roundTo_scale]
    congr 1
    rw [← ih]
    congr 1
    ext <;> simp only [v3_comp, mul_comp] <;> ring

/-- **C105** (scaled): an arc drawn `k` times as large, with an error bound `k` times as large, is replaced by the same lines
`k` times as large, in every plane and whichever way its centre is given; and what is refused at one scale is refused at the
other, with the same exception.  In incremental distance mode, where increments are rounded to decimals, this needs
a scale that is a power of ten, with as many decimals less. -/
theorem C105_scaled (k : ℚ) (hk : 0 < k) (g g' : GCode) (h : ScaledArc k g g') (start start' : Position)
    (hX : start'.val .X = k * start.val .X) (hY : start'.val .Y = k * start.val .Y) (hZ : start'.val .Z = k * start.val .Z)
    (plane : Option Cls) (method : Option ArcMethod) (incr arcIncr : Bool) (e : ℝ) (d d' : ℤ)
    (hd : incr = true → (k : ℝ) = 10 ^ (d - d')) :
    linearizeArc g' start' plane method incr arcIncr (k * e) d' =
      ((linearizeArc g start plane method incr arcIncr e d).1.map (fun v => ⟨k * v.x, k * v.y, k * v.z⟩),
       (linearizeArc g start plane method incr arcIncr e d).2) := by
  have hk' : (0 : ℝ) < k := by exact_mod_cast hk
  have hs : start'.vector = start.vector.mul k := by
    unfold Position.vector
    rw [hX, hY, hZ]
    ext <;> simp only [mul_comp] <;> push_cast <;> ring
  have hf : (fun v : V3 => (⟨k * v.x, k * v.y, k * v.z⟩ : V3)) = fun v => v.mul k := by
    funext v
    ext <;> simp only [mul_comp] <;> ring
  rw [hf, mul_comm (k : ℝ) e]
  unfold linearizeArc
  cases method with
  | none => simp
  | some m =>
    simp only [h.cls, mul_pos_iff_of_pos_right hk']
    by_cases hass : ¬ (g.cls.isSub .arcMove ∧ (plane.getD .selectXYPlane).isSub .planeSelect ∧ 0 < e)
    · simp only [if_pos hass]; simp
    · simp only [if_neg hass]
      cases hn : planeNormal (plane.getD .selectXYPlane) with
      | none => simp
      | some n =>
        cases hq : planeQuat (plane.getD .selectXYPlane) with
        | none => simp
        | some q =>
          simp only [hs, arcOf_scaled h hk]
          cases ha : g.arcOf start.vector n q incr arcIncr e with
          | error x => simp [Except.map]
          | ok a =>
            simp only [Except.map, vertices_scaled hk']
            cases hv : a.iterVertices m with
            | error x => simp
            | ok ls =>
              have hmap : List.map Prod.snd (List.map (fun l : V3 × V3 => (l.1.mul k, l.2.mul k)) ls) =
                  (ls.map Prod.snd).map (·.mul k) := by simp
              simp only [hmap]
              cases incr
              · rfl
              · simp only [if_true, Prod.mk.injEq, and_true]
                rw [hd rfl]
                have := deltas_scaled d (d - d') (ls.map Prod.snd) start.vector
                rwa [show d - (d - d') = d' by ring] at this

/-! ## Similar arcs -/

/-- The linear part of a similarity of the plane: turning and scaling by `c`, after mirroring if `flip`. -/
noncomputable def similarL (flip : Bool) (c z : ℂ) : ℂ := c * (if flip then (starRingEnd ℂ) z else z)

/-- A similarity of the plane. -/
noncomputable def similar (flip : Bool) (c t z : ℂ) : ℂ := c * (if flip then (starRingEnd ℂ) z else z) + t

section
variable (flip : Bool) (c t z w : ℂ)

theorem similar_sub : similar flip c t z - similar flip c t w = similarL flip c (z - w) := by
  unfold similar similarL
  cases flip <;> simp <;> ring

theorem similar_add : similar flip c t (z + w) = similar flip c t z + similarL flip c w := by
  unfold similar similarL
  cases flip <;> simp <;> ring

theorem similarL_neg : similarL flip c (-z) = -similarL flip c z := by
  unfold similarL; cases flip <;> simp

theorem similarL_real (r : ℝ) : similarL flip c (r * z) = r * similarL flip c z := by
  unfold similarL
  cases flip <;> simp <;> ring

theorem similarL_norm : ‖similarL flip c z‖ = ‖c‖ * ‖z‖ := by
  unfold similarL
  rw [norm_mul]
  cases flip <;> simp

theorem conj_cw (θ : ℝ) : (starRingEnd ℂ) (cw θ) = cw (-θ) := by
  rw [cw_eq, cw_eq]
  apply Complex.ext <;> simp

theorem similarL_cw (θ : ℝ) : similarL flip c (cw θ * z) = cw (if flip then -θ else θ) * similarL flip c z := by
  unfold similarL
  cases flip
  · simp only [Bool.false_eq_true, if_false]; ring
  · simp only [if_true, map_mul, conj_cw]; ring

theorem similarL_I : similarL flip c (-Complex.I * z) = (if flip then -1 else 1) * (-Complex.I * similarL flip c z) := by
  unfold similarL
  cases flip
  · simp only [Bool.false_eq_true, if_false]; ring
  · simp only [if_true, map_mul, map_neg, Complex.conj_I]; ring

end

theorem halfSpan_similar (flip : Bool) (c t S E : ℂ) :
    halfSpan (similar flip c t S) (similar flip c t E) = similarL flip c (halfSpan S E) := by
  unfold halfSpan
  rw [similar_sub, show (E - S) / 2 = ((1 / 2 : ℝ) : ℂ) * (E - S) by push_cast; ring, similarL_real]
  push_cast
  ring

theorem toRight_similar (flip : Bool) {c : ℂ} (hc : c ≠ 0) (t S E : ℂ) (r : ℝ) :
    toRight (similar flip c t S) (similar flip c t E) (‖c‖ * r) = (if flip then -1 else 1) * similarL flip c (toRight S E r) := by
  have hc' : 0 < ‖c‖ := norm_pos_iff.2 hc
  unfold toRight
  rw [halfSpan_similar, similarL_norm, mul_comm ‖c‖ r, mul_comm ‖c‖ ‖halfSpan S E‖, sqrt_scale hc']
  set h := halfSpan S E
  set q := √(r ^ 2 - ‖h‖ ^ 2)
  have h1 : similarL flip c (-Complex.I * (h / (‖h‖ : ℝ)) * (q : ℝ)) =
      (if flip then -1 else 1) * (-Complex.I * ((q : ℂ) * ((‖h‖⁻¹ : ℝ) * similarL flip c h))) := by
    rw [← similarL_real, ← similarL_real, ← similarL_I]
    congr 1
    push_cast
    ring
  rw [h1]
  have hcC : ((‖c‖ : ℝ) : ℂ) ≠ 0 := by exact_mod_cast hc'.ne'
  have h2 : ((if flip then -1 else 1 : ℂ)) * (if flip then -1 else 1 : ℂ) = 1 := by cases flip <;> norm_num
  rw [← mul_assoc, h2, one_mul]
  push_cast
  rw [div_eq_mul_inv, mul_inv]
  field_simp

theorem centers_similar (flip : Bool) {c : ℂ} (hc : c ≠ 0) (t S E : ℂ) (r : ℝ) :
    leftCenter (similar flip c t S) (similar flip c t E) (‖c‖ * r) =
      similar flip c t (if flip then rightCenter S E r else leftCenter S E r) ∧
    rightCenter (similar flip c t S) (similar flip c t E) (‖c‖ * r) =
      similar flip c t (if flip then leftCenter S E r else rightCenter S E r) := by
  unfold leftCenter rightCenter
  rw [toRight_similar flip hc, halfSpan_similar]
  cases flip <;> simp only [Bool.false_eq_true, if_false, if_true, sub_eq_add_neg, similar_add, similarL_neg] <;>
    constructor <;> ring

theorem wedgeCos_scale {k : ℝ} (hk : 0 < k) (m : ArcMethod) (r x : ℝ) : wedgeCos m (k * r) (k * x) = wedgeCos m r x := by
  cases m <;> simp only [wedgeCos]
  · rw [← mul_sub, mul_div_mul_left _ _ hk.ne']
  · rw [← mul_add, mul_div_mul_left _ _ hk.ne']
  · rw [mul_div_assoc, ← mul_sub, ← mul_add, mul_div_mul_left _ _ hk.ne']

theorem similar_angle {A A' : ℝ} {z : ℂ} (hz : z ≠ 0) (h : cw A' * z = cw A * z)
    (hA : 0 < A ∧ A < 2 * Real.pi ∧ 0 < A' ∧ A' < 2 * Real.pi ∨
      -(2 * Real.pi) < A ∧ A < 0 ∧ -(2 * Real.pi) < A' ∧ A' < 0) : A' = A := by
  have h1 : cw (A' - A) = 1 := by
    rw [sub_eq_add_neg, cw_add, mul_right_cancel₀ hz h, ← cw_add, add_neg_cancel, cw_zero]
  have h2 : Real.cos (A' - A) = 1 := by
    rw [cw_eq] at h1
    exact congrArg Complex.re h1
  have h3 := (Real.cos_eq_one_iff_of_lt_of_lt (by rcases hA with h | h <;> linarith) (by rcases hA with h | h <;> linarith)).1 h2
  linarith

/-- The lines of an arc and of a similar arc. -/
theorem similar_lines (p : Pl) (g g' : GCode) (s s' : V3) (q : Quat) (arcIncr : Bool) (e : ℝ) (a a' : Arc) (he : 0 < e)
    (flip : Bool) (c t : ℂ) (hc : c ≠ 0) (lam mu : ℝ)
    (h : g.arcOf s p.normal q false arcIncr e = .ok a) (h' : g'.arcOf s' p.normal q false arcIncr (‖c‖ * e) = .ok a')
    (hne : p.coord s ≠ p.coord (g.arcEnd s false))
    (hs : p.coord s' = similar flip c t (p.coord s))
    (hE : p.coord (g'.arcEnd s' false) = similar flip c t (p.coord (g.arcEnd s false)))
    (hhs : p.height s' = lam * p.height s + mu) (hhE : p.height (g'.arcEnd s' false) = lam * p.height (g.arcEnd s false) + mu)
    (hsw : Sweeps p a) (hsw' : Sweeps p a')
    (hdir : g'.cls.isSub .arcMoveCW = (g.cls.isSub .arcMoveCW ^^ flip))
    (hrad : a'.radius = ‖c‖ * a.radius) (hcen : p.coord a'.pCenter = similar flip c t (p.coord a.pCenter))
    (m : ArcMethod) (ls ls' : List (V3 × V3))
    (hl : a.iterVertices m = .ok ls) (hl' : a'.iterVertices m = .ok ls') :
    ls'.length = ls.length ∧ ∀ (i : ℕ) (v v' : V3), (ls.map Prod.snd)[i]? = some v → (ls'.map Prod.snd)[i]? = some v' →
      p.coord v' = similar flip c t (p.coord v) ∧ p.height v' = lam * p.height v + mu := by
  have hc' : 0 < ‖c‖ := norm_pos_iff.2 hc
  have F := arcOf_ok p g s q false arcIncr e a h
  have F' := arcOf_ok p g' _ q false arcIncr _ a' h'
  obtain ⟨hr, -, hd1, hd2⟩ := C56_center p g s q false arcIncr e a h hne
  have hne' : p.coord s' ≠ p.coord (g'.arcEnd s' false) := by
    rw [hs, hE, ← sub_ne_zero, similar_sub, ← norm_pos_iff, similarL_norm]
    exact mul_pos hc' (norm_pos_iff.2 (sub_ne_zero.2 hne))
  have hang := angle_ne p a hsw (by rw [F.cStart, F.cEnd]; exact hne)
  have hang' := angle_ne p a' hsw' (by rw [F'.cStart, F'.cEnd]; exact hne')
  have hr' : 0 < a'.radius := by rw [hrad]; exact mul_pos hc' hr
  have he1 : 0 < a.maxError := by rw [F.maxError]; exact he
  have he2 : 0 < a'.maxError := by rw [F'.maxError]; exact mul_pos hc' he
  have hz : p.coord s - p.coord a.pCenter ≠ 0 := by rw [← norm_pos_iff, hd1]; exact hr
  have hz' : similarL flip c (p.coord s - p.coord a.pCenter) ≠ 0 := by
    rw [← norm_pos_iff, similarL_norm]; exact mul_pos hc' (norm_pos_iff.2 hz)
  -- the angles
  have hA : a'.angle = if flip then -a.angle else a.angle := by
    refine similar_angle hz' ?_ ?_
    · have h1 := hsw
      have h2 := hsw'
      unfold Sweeps at h1 h2
      rw [F.cStart, F.cEnd] at h1
      rw [F'.cStart, F'.cEnd, hcen, hs, hE, similar_sub, similar_sub, h1, similarL_cw] at h2
      exact h2.symm
    · have r1 := angle_range p g s q false arcIncr e a F
      have r2 := angle_range p g' s' q false arcIncr _ a' F'
      rw [hdir] at r2
      cases flip with
      | false =>
        simp only [Bool.false_eq_true, if_false, Bool.xor_false] at r2 ⊢
        cases hcw : g.cls.isSub .arcMoveCW with
        | true =>
          obtain ⟨b1, b2⟩ := r1.1 hcw
          obtain ⟨b3, b4⟩ := r2.1 hcw
          exact .inl ⟨lt_of_le_of_ne b1 hang.symm, b2, lt_of_le_of_ne b3 hang'.symm, b4⟩
        | false =>
          obtain ⟨b1, b2⟩ := r1.2 hcw
          obtain ⟨b3, b4⟩ := r2.2 hcw
          exact .inr ⟨b1, lt_of_le_of_ne b2 hang, b3, lt_of_le_of_ne b4 hang'⟩
      | true =>
        simp only [if_true, Bool.xor_true] at r2 ⊢
        cases hcw : g.cls.isSub .arcMoveCW with
        | true =>
          obtain ⟨b1, b2⟩ := r1.1 hcw
          obtain ⟨b3, b4⟩ := r2.2 (by rw [hcw]; rfl)
          have := lt_of_le_of_ne b1 hang.symm
          exact .inr ⟨by linarith, by linarith, b3, lt_of_le_of_ne b4 hang'⟩
        | false =>
          obtain ⟨b1, b2⟩ := r1.2 hcw
          obtain ⟨b3, b4⟩ := r2.1 (by rw [hcw]; rfl)
          have := lt_of_le_of_ne b2 hang
          exact .inl ⟨by linarith, by linarith, lt_of_le_of_ne b3 hang'.symm, b4⟩
  have hAabs : |a'.angle| = |a.angle| := by rw [hA]; cases flip <;> simp
  obtain ⟨n, w, W⟩ := wedges a m he1 hr hang
  obtain ⟨n', w', W'⟩ := wedges a' m he2 hr' hang'
  obtain ⟨R, hR, -, -, -, hin⟩ := outer_ok a m he1 hr W
  obtain ⟨R', hR', -, -, -, hin'⟩ := outer_ok a' m he2 hr' W'
  have hmax := maxWedge_ok a m he1 hr
  have hmax' := maxWedge_ok a' m he2 hr'
  have hee : a'.maxError = ‖c‖ * a.maxError := by rw [F.maxError, F'.maxError]
  rw [hrad, hee, ← mul_min_of_nonneg _ _ hc'.le, wedgeCos_scale hc'] at hmax'
  -- the wedges
  have hfit : ∀ {b : Arc} {k : ℕ} {v : ℝ}, Wedges b m k v → ∀ X, b.maxWedge m = .ok X → |b.angle| ≤ X * k := by
    intro b k v V X hX
    rw [← V.total, abs_mul, Nat.abs_cast]
    exact mul_le_mul_of_nonneg_right (V.small _ hX).1 (Nat.cast_nonneg k)
  have hn : n' = n := by
    apply le_antisymm
    · exact W'.least _ hmax' _ (by rw [hAabs]; exact hfit W _ hmax)
    · exact W.least _ hmax _ (by rw [← hAabs]; exact hfit W' _ hmax')
  subst hn
  have hn0 : (n' : ℝ) ≠ 0 := by exact_mod_cast W.pos.ne'
  have hw : w' = if flip then -w else w := by
    apply mul_right_cancel₀ hn0
    rw [W'.total, hA, ← W.total]
    cases flip <;> simp
  have hcos : ∀ k : ℝ, Real.cos (w' / k) = Real.cos (w / k) := by
    intro k
    rw [hw]
    cases flip
    · rfl
    · simp only [if_true]; rw [neg_div, Real.cos_neg]
  have hRR : R' = ‖c‖ * R := by
    have o1 := outer_eq a m he1 hr W hR
    have o2 := outer_eq a' m he2 hr' W' hR'
    cases m with
    | inside => simp only at o1 o2; rw [o1, o2, hrad]
    | outside =>
      simp only at o1 o2
      rw [hcos, hrad, ← o1, ← mul_assoc] at o2
      have : Real.cos (w / 2) ≠ 0 := by intro h0; rw [h0, mul_zero] at o1; exact hr.ne o1
      exact mul_right_cancel₀ this o2
    | mid =>
      simp only at o1 o2
      rw [hcos, hrad, ← o1, ← mul_assoc] at o2
      have : Real.cos (w / 4) ^ 2 ≠ 0 := by intro h0; rw [h0, mul_zero] at o1; exact hr.ne o1
      exact mul_right_cancel₀ this o2
  subst hRR
  -- the corners
  have hrC : (a.radius : ℂ) ≠ 0 := by exact_mod_cast hr.ne'
  have hcC : ((‖c‖ : ℝ) : ℂ) ≠ 0 := by exact_mod_cast hc'.ne'
  set u : ℂ := (p.coord s - p.coord a.pCenter) / a.radius with hu
  have hu' : p.coord a.pStart - p.coord a.pCenter = a.radius * u := by rw [hu, F.cStart]; field_simp
  have hu1 : ‖u‖ = 1 := by
    rw [hu, norm_div, hd1, Complex.norm_real, Real.norm_of_nonneg hr.le, div_self hr.ne']
  have hu2 : p.coord a'.pStart - p.coord a'.pCenter = a'.radius * (similarL flip c u / (‖c‖ : ℝ)) := by
    rw [F'.cStart, hcen, hs, similar_sub, ← F.cStart, hu', similarL_real, hrad]
    push_cast
    field_simp
  have hu3 : ‖similarL flip c u / ((‖c‖ : ℝ) : ℂ)‖ = 1 := by
    rw [norm_div, similarL_norm, hu1, Complex.norm_real, Real.norm_of_nonneg hc'.le, mul_one, div_self hc'.ne']
  have hcp := fun i x hx => corner_point p a m (n := n') (w := w) (R := R) u F.normal F.hpStart F.hpCenter
    (by rw [F.hStart]; simp) (by rw [F.hEnd]; simp) hr hu' hu1 hsw i x hx
  have hch := fun i x hx => corner_height p F m (R := R) W hang i x hx
  have hcp' := fun i x hx => corner_point p a' m (n := n') (w := w') (R := ‖c‖ * R) _ F'.normal F'.hpStart F'.hpCenter
    (by rw [F'.hStart]; simp) (by rw [F'.hEnd]; simp) hr' hu2 hu3 hsw' i x hx
  have hch' := fun i x hx => corner_height p F' m (R := ‖c‖ * R) W' hang' i x hx
  rw [iterVertices_ok a m W hR, Except.ok.injEq] at hl
  rw [iterVertices_ok a' m W' hR', Except.ok.injEq] at hl'
  have hls : ls.map Prod.snd = (List.range (inner m n')).map
      (a.vertex m w ((a.pStart - a.pCenter).normalized.mul R)) ++ [a.pEnd + a.hEnd] := by
    rw [← hl, lines_snd]
  have hls' : ls'.map Prod.snd = (List.range (inner m n')).map
      (a'.vertex m w' ((a'.pStart - a'.pCenter).normalized.mul (‖c‖ * R))) ++ [a'.pEnd + a'.hEnd] := by
    rw [← hl', lines_snd]
  constructor
  · have h1 := congrArg List.length hls
    have h2 := congrArg List.length hls'
    rw [List.length_map] at h1 h2
    rw [h1, h2]
    simp
  · intro i v v' hv hv'
    rw [hls] at hv
    rw [hls'] at hv'
    have c1 := hcp (i + 1) v (by rw [List.getElem?_cons_succ]; exact hv)
    have c2 := hcp' (i + 1) v' (by rw [List.getElem?_cons_succ]; exact hv')
    have d1 := hch (i + 1) v (by rw [List.getElem?_cons_succ]; exact hv)
    have d2 := hch' (i + 1) v' (by rw [List.getElem?_cons_succ]; exact hv')
    constructor
    · have hrho : (corner a' m n' w' (‖c‖ * R) (i + 1)).1 = ‖c‖ * (corner a m n' w R (i + 1)).1 := by
        unfold corner
        rw [if_neg (Nat.succ_ne_zero i), if_neg (Nat.succ_ne_zero i)]
        by_cases hi : i + 1 ≤ inner m n'
        · rw [if_pos hi, if_pos hi]
        · rw [if_neg hi, if_neg hi]; exact hrad
      have k1 := c1.1
      have k2 := c2.1
      rw [corner_fraction a m R W] at k1
      rw [corner_fraction a' m _ W', hrho, hA, hcen] at k2
      rw [← sub_left_inj (a := similar flip c t (p.coord a.pCenter)), k2, similar_sub, k1,
        mul_assoc ((corner a m n' w R (i + 1)).1 : ℂ), similarL_real, similarL_cw]
      have : (cornerFraction m n' (i + 1) * if flip = true then -a.angle else a.angle) =
          if flip = true then -(cornerFraction m n' (i + 1) * a.angle) else cornerFraction m n' (i + 1) * a.angle := by
        cases flip <;> simp
      rw [this]
      push_cast
      field_simp
    · rw [d1, d2, hhs, hhE]
      ring

/-- `g'`, begun at `s'`, is the image of the arc `g`, begun at `s`, under a similarity of the XY plane: start, end and centre
(or the radius, with the same sign) are mapped, the direction is the other one after mirroring. -/
structure SimilarArc (flip : Bool) (c t : ℂ) (lam mu : ℝ) (g g' : GCode) (s s' : V3) (arcIncr : Bool) : Prop where
  arc : g'.cls.isSub .arcMove = true
  params : g'.assertArcParams = .ok ()
  dir : g'.cls.isSub .arcMoveCW = (g.cls.isSub .arcMoveCW ^^ flip)
  start : xy.coord s' = similar flip c t (xy.coord s)
  stop : xy.coord (g'.arcEnd s' false) = similar flip c t (xy.coord (g.arcEnd s false))
  startZ : s'.z = lam * s.z + mu
  stopZ : (g'.arcEnd s' false).z = lam * (g.arcEnd s false).z + mu
  radius : ∀ r, g.num? 'R' = some r → ∃ r', g'.num? 'R' = some r' ∧ (r' : ℝ) = ‖c‖ * r
  center : g.num? 'R' = none → g'.num? 'R' = none ∧
    xy.coord (g'.arcCenter s' arcIncr) = similar flip c t (xy.coord (g.arcCenter s arcIncr)) ∧
    (flip = true → OneCentre (xy.coord s) (xy.coord (g.arcEnd s false)) (xy.coord (g.arcCenter s arcIncr)))

/-- A point moved by a similarity of the XY plane and an affine map of Z. -/
noncomputable def similarV (flip : Bool) (c t : ℂ) (lam mu : ℝ) (v : V3) : V3 :=
  ⟨(similar flip c t ⟨v.x, v.y⟩).re, (similar flip c t ⟨v.x, v.y⟩).im, lam * v.z + mu⟩

theorem xy_coord (v : V3) : xy.coord v = ⟨v.x, v.y⟩ := by apply Complex.ext <;> simp [Pl.coord]
theorem xy_height (v : V3) : xy.height v = v.z := by simp [Pl.height]

theorem similar_onto (flip : Bool) {c : ℂ} (hc : c ≠ 0) (t z : ℂ) : ∃ w, similar flip c t w = z := by
  refine ⟨if flip then (starRingEnd ℂ) ((z - t) / c) else (z - t) / c, ?_⟩
  unfold similar
  cases flip <;> simp [mul_div_cancel₀ _ hc]

theorem MeanCentre.similar {S E C z : ℂ} (h : MeanCentre S E C z) (flip : Bool) {c : ℂ} (hc : c ≠ 0) (t : ℂ) :
    MeanCentre (similar flip c t S) (similar flip c t E) (similar flip c t C) (similar flip c t z) := by
  have hc' : 0 < ‖c‖ := norm_pos_iff.2 hc
  have hn : ∀ x y : ℂ, ‖Pygcode.similar flip c t x - Pygcode.similar flip c t y‖ = ‖c‖ * ‖x - y‖ := fun x y => by
    rw [similar_sub, similarL_norm]
  obtain ⟨h1, h2, h3⟩ := h
  unfold MeanCentre
  rw [hn, hn, hn, hn, hn]
  refine ⟨by rw [h1]; ring, by rw [h2]; ring, fun w => ?_⟩
  obtain ⟨v, rfl⟩ := similar_onto flip hc t w
  rw [hn, hn, hn, ← mul_add, mul_div_assoc]
  intro w1 w2
  exact mul_le_mul_of_nonneg_left (h3 v (mul_left_cancel₀ hc'.ne' w1) (mul_left_cancel₀ hc'.ne' w2)) hc'.le

theorem OneCentre.similar {S E C : ℂ} (h : OneCentre S E C) (flip : Bool) {c : ℂ} (hc : c ≠ 0) (t : ℂ) :
    OneCentre (similar flip c t S) (similar flip c t E) (similar flip c t C) := by
  intro k hk
  refine h k ?_
  have h0 : similarL flip c (C - (S + k * (E - S))) = 0 := by
    have e1 : similarL flip c (C - (S + k * (E - S))) =
        Pygcode.similar flip c t C - (Pygcode.similar flip c t S + k * (Pygcode.similar flip c t E - Pygcode.similar flip c t S)) := by
      unfold similarL Pygcode.similar
      cases flip <;> simp <;> ring
    rw [e1, hk]; ring
  have hz := similarL_norm flip c (C - (S + k * (E - S)))
  rw [h0, norm_zero] at hz
  rcases mul_eq_zero.1 hz.symm with h1 | h1
  · exact absurd (norm_eq_zero.1 h1) hc
  · exact sub_eq_zero.1 (norm_eq_zero.1 h1)

theorem similar_center (flip : Bool) (c t : ℂ) (hc : c ≠ 0) (lam mu : ℝ) (g g' : GCode) (s s' : V3) (q : Quat) (arcIncr : Bool) (e : ℝ) (a a' : Arc)
    (h : g.arcOf s xy.normal q false arcIncr e = .ok a) (h' : g'.arcOf s' xy.normal q false arcIncr (‖c‖ * e) = .ok a')
    (hne : xy.coord s ≠ xy.coord (g.arcEnd s false)) (hsim : SimilarArc flip c t lam mu g g' s s' arcIncr) :
    a'.radius = ‖c‖ * a.radius ∧ xy.coord a'.pCenter = similar flip c t (xy.coord a.pCenter) := by
  have hc' : 0 < ‖c‖ := norm_pos_iff.2 hc
  have F := arcOf_ok xy g s q false arcIncr e a h
  have F' := arcOf_ok xy g' s' q false arcIncr _ a' h'
  have hne' : xy.coord s' ≠ xy.coord (g'.arcEnd s' false) := by
    rw [hsim.start, hsim.stop, ← sub_ne_zero, similar_sub, ← norm_pos_iff, similarL_norm]
    exact mul_pos hc' (norm_pos_iff.2 (sub_ne_zero.2 hne))
  cases hR : g.num? 'R' with
  | some r =>
    obtain ⟨r', hR', hrr⟩ := hsim.radius r hR
    have hr : a'.radius = ‖c‖ * a.radius := by
      rw [(F.radiusR r hR).1, (F'.radiusR r' hR').1, hrr, abs_mul, abs_of_pos hc']
    have hsign : r' < 0 ↔ r < 0 := by
      have : (r' : ℝ) < 0 ↔ (r : ℝ) < 0 := by
        rw [hrr]
        constructor
        · intro h; by_contra h2; exact absurd (mul_nonneg hc'.le (not_lt.1 h2)) (not_le.2 h)
        · intro h; exact mul_neg_of_pos_of_neg hc' h
      exact_mod_cast this
    refine ⟨hr, ?_⟩
    rw [F.centerR r hR, F'.centerR r' hR', hr, hsim.start, hsim.stop, (centers_similar flip hc t _ _ _).1,
      (centers_similar flip hc t _ _ _).2, hsim.dir]
    simp only [hsign]
    cases g.cls.isSub .arcMoveCW <;> cases flip <;> by_cases h0 : r < 0 <;> simp [h0]
  | none =>
    obtain ⟨hR', hcc, hequi⟩ := hsim.center hR
    have hr : a'.radius = ‖c‖ * a.radius := by
      rw [F.radiusC hR, F'.radiusC hR', hsim.start, hsim.stop, hcc, similar_sub, similar_sub, similarL_norm, similarL_norm]
      ring
    refine ⟨hr, ?_⟩
    cases flip with
    | true =>
      have k1 := C121_mean xy g _ _ false arcIncr e a h hne hR
      have k2 := C121_mean xy g' _ _ false arcIncr _ a' h' hne' hR'
      rw [hsim.start, hsim.stop] at k2 hne'
      rw [hcc] at k2
      refine mean_unique hne' ((hequi rfl).similar true hc t) k2 (k1.similar true hc t)
    | false =>
      obtain ⟨c1, c2⟩ := centers_similar false hc t (xy.coord s) (xy.coord (g.arcEnd s false)) a.radius
      simp only [Bool.false_eq_true, if_false] at c1 c2
      have k := F.centerC hR
      have k' := F'.centerC hR'
      rw [hr, hsim.start, hsim.stop, hcc, c1, c2, similar_sub, similar_sub, similarL_norm, similarL_norm,
        mul_lt_mul_iff_right₀ hc', mul_le_mul_iff_right₀ hc'] at k'
      rcases k with ⟨k1, k2⟩ | ⟨k1, k2⟩ <;> rcases k' with ⟨k3, k4⟩ | ⟨k3, k4⟩
      · rw [k1, k3]
      · exact absurd k2 (not_lt.2 k4)
      · exact absurd k4 (not_lt.2 k2)
      · rw [k1, k3]

/-- **C105** (outside): the restriction on the centre of a mirrored arc cannot be dropped. When the named centre is on the line
through both ends and outside them, the mirrored arc is not drawn around the mirrored centre. -/
theorem C105_outside (c t : ℂ) (hc : c ≠ 0) (g g' : GCode) (s s' : V3) (q : Quat) (arcIncr : Bool) (e e' : ℝ) (a a' : Arc)
    (h : g.arcOf s xy.normal q false arcIncr e = .ok a) (h' : g'.arcOf s' xy.normal q false arcIncr e' = .ok a')
    (hne : xy.coord s ≠ xy.coord (g.arcEnd s false)) (hR : g.num? 'R' = none) (hR' : g'.num? 'R' = none)
    (hstart : xy.coord s' = similar true c t (xy.coord s))
    (hstop : xy.coord (g'.arcEnd s' false) = similar true c t (xy.coord (g.arcEnd s false)))
    (hcen : xy.coord (g'.arcCenter s' arcIncr) = similar true c t (xy.coord (g.arcCenter s arcIncr)))
    (k : ℝ) (hk : xy.coord (g.arcCenter s arcIncr) = xy.coord s + k * (xy.coord (g.arcEnd s false) - xy.coord s))
    (hout : k < 0 ∨ 1 < k) : xy.coord a'.pCenter ≠ similar true c t (xy.coord a.pCenter) := by
  have F := arcOf_ok xy g s q false arcIncr e a h
  have F' := arcOf_ok xy g' s' q false arcIncr e' a' h'
  have hr : a'.radius = ‖c‖ * a.radius := by
    rw [F.radiusC hR, F'.radiusC hR', hstart, hstop, hcen, similar_sub, similar_sub, similarL_norm, similarL_norm]
    ring
  have k1 := tie_right F hR hk
  have k2 := tie_right F' hR' (t := k) (by
    rw [hstart, hstop, hcen, hk]
    unfold similar
    simp
    ring)
  rw [hstart, hstop, hr, (centers_similar true hc t _ _ _).2] at k2
  rw [k1, k2]
  intro hcon
  refine outside_ne hne hk hout (F.radiusC hR) ?_
  have h0 : ‖similarL true c (leftCenter (xy.coord s) (xy.coord (g.arcEnd s false)) a.radius -
      rightCenter (xy.coord s) (xy.coord (g.arcEnd s false)) a.radius)‖ = 0 := by
    rw [← similar_sub true c t, norm_eq_zero, sub_eq_zero]
    simpa using hcon
  rw [similarL_norm] at h0
  rcases mul_eq_zero.1 h0 with h1 | h1
  · exact absurd (norm_eq_zero.1 h1) hc
  · exact sub_eq_zero.1 (norm_eq_zero.1 h1)

/-- **C105** (similar): an arc in the XY plane that is displaced, turned, mirrored and scaled — by any similarity of the plane,
with the heights mapped by any affine map of their own — is replaced by the same lines, displaced, turned, mirrored and scaled in
the same way. -/
theorem C105_similar (g g' : GCode) (start start' : Position) (plane : Option Cls)
    (hpl : plane = none ∨ plane = some .selectXYPlane) (m : ArcMethod) (arcIncr : Bool) (e : ℝ) (d d' : ℤ) (vs : List V3)
    (flip : Bool) (c t : ℂ) (hc : c ≠ 0) (lam mu : ℝ)
    (hsim : SimilarArc flip c t lam mu g g' start.vector start'.vector arcIncr)
    (hne : xy.coord start.vector ≠ xy.coord (g.arcEnd start.vector false))
    (h : linearizeArc g start plane (some m) false arcIncr e d = (vs, .done)) :
    linearizeArc g' start' plane (some m) false arcIncr (‖c‖ * e) d' = (vs.map (similarV flip c t lam mu), .done) := by
  have hc' : 0 < ‖c‖ := norm_pos_iff.2 hc
  have hpl' : ∀ (g : GCode) (st : Position) (e : ℝ) (d : ℤ), linearizeArc g st plane (some m) false arcIncr e d =
      linearizeArc g st (some .selectXYPlane) (some m) false arcIncr e d := by
    intro g st e d
    rcases hpl with rfl | rfl <;> rfl
  rw [hpl'] at h ⊢
  have hne' : xy.coord start'.vector ≠ xy.coord (g'.arcEnd start'.vector false) := by
    rw [hsim.start, hsim.stop, ← sub_ne_zero, similar_sub, ← norm_pos_iff, similarL_norm]
    exact mul_pos hc' (norm_pos_iff.2 (sub_ne_zero.2 hne))
  obtain ⟨-, hpos, -, hR⟩ := (C62_done g start m false arcIncr e d _ rfl hne).1 ⟨vs, h⟩
  obtain ⟨vs', h'⟩ := (C62_done g' start' m false arcIncr (‖c‖ * e) d' _ rfl hne').2 ⟨hsim.arc, mul_pos hc' hpos, hsim.params, by
    intro r' hr'
    cases hRg : g.num? 'R' with
    | none => rw [(hsim.center hRg).1] at hr'; cases hr'
    | some r =>
      obtain ⟨r'', h1, h2⟩ := hsim.radius r hRg
      obtain rfl : r'' = r' := Option.some.inj (h1.symm.trans hr')
      obtain ⟨b1, b2⟩ := hR r hRg
      rw [hsim.start, hsim.stop, similar_sub, similarL_norm, h2, abs_mul, abs_of_pos hc']
      refine ⟨mul_le_mul_of_nonneg_left b1 hc'.le, ?_⟩
      have := mul_le_mul_of_nonneg_left b2 hc'.le
      linarith⟩
  rw [h']
  obtain ⟨p, m1, s, q, a, ls, D, hv⟩ := linearize_done h
  obtain ⟨p', m2, s', q', a', ls', D', hv'⟩ := linearize_done h'
  obtain rfl : m = m1 := Option.some.inj D.method
  obtain rfl : m = m2 := Option.some.inj D'.method
  have hxy : ∀ {r : Pl}, (some Cls.selectXYPlane).getD .selectXYPlane = r.cls → r = xy := by
    intro r hr
    cases r <;> first | rfl | cases hr
  obtain rfl := hxy D.plane
  obtain rfl := hxy D'.plane
  have hq : q = Quat.one := by have := D.quat; simp [planeQuat, Pl.cls] at this; exact this.symm
  have hq' : q' = Quat.one := by have := D'.quat; simp [planeQuat, Pl.cls] at this; exact this.symm
  subst hq hq'
  obtain rfl := D.start
  obtain rfl := D'.start
  have key := similar_center flip c t hc lam mu g g' _ _ _ arcIncr e a a' D.ok D'.ok hne hsim
  obtain ⟨k1, k2⟩ := similar_lines xy g g' _ _ _ arcIncr e a a' hpos flip c t hc lam mu D.ok D'.ok hne hsim.start hsim.stop
    (by rw [xy_height, xy_height]; exact hsim.startZ) (by rw [xy_height, xy_height]; exact hsim.stopZ)
    (sweeps_xy _ _ _ _ _ _ D.ok) (sweeps_xy _ _ _ _ _ _ D'.ok) hsim.dir key.1 key.2 m ls ls' D.verts D'.verts
  simp only [Bool.false_eq_true, if_false] at hv hv'
  rw [hv, hv', Prod.mk.injEq]
  refine ⟨?_, rfl⟩
  apply List.ext_getElem?
  intro i
  by_cases hi : i < ls.length
  · have g1 : (ls.map Prod.snd)[i]? = some ls[i].2 := by simp [hi]
    have g2 : (ls'.map Prod.snd)[i]? = some (ls'[i]'(by omega)).2 := by simp [k1, hi]
    obtain ⟨b1, b2⟩ := k2 i _ _ g1 g2
    rw [g2, List.getElem?_map, g1, Option.map_some]
    congr 1
    rw [xy_coord, xy_coord] at b1
    rw [xy_height, xy_height] at b2
    exact V3.ext (congrArg Complex.re b1) (congrArg Complex.im b1) b2
  · rw [List.getElem?_eq_none (by simpa [k1] using hi), List.getElem?_eq_none (by simpa using hi)]

/-! ## Instances -/

/-- `G3 X0 Y25.4 I-25.4`: `sampleArc` with inches given as millimetres. -/
def sampleMetric : GCode := ⟨.arcMoveCCW, ⟨'G', .num 3⟩, [⟨'X', .num 0⟩, ⟨'Y', .num (254 / 10)⟩, ⟨'I', .num (-254 / 10)⟩], false⟩
/-- `G3 X0 Y10 I-10`. -/
def sampleTen : GCode := ⟨.arcMoveCCW, ⟨'G', .num 3⟩, [⟨'X', .num 0⟩, ⟨'Y', .num 10⟩, ⟨'I', .num (-10)⟩], false⟩
/-- `G2 X0 Y-1 I-1`: `sampleArc` mirrored. -/
def sampleMirror : GCode := ⟨.arcMoveCW, ⟨'G', .num 2⟩, [⟨'X', .num 0⟩, ⟨'Y', .num (-1)⟩, ⟨'I', .num (-1)⟩], false⟩

theorem sampleMetric_scaled : ScaledArc (254 / 10) sampleArc sampleMetric := by
  refine ⟨rfl, fun l => ?_, by decide +kernel⟩
  simp only [GCode.param, sampleArc, sampleMetric, List.find?_cons, List.find?_nil]
  cases h1 : 'X' == l <;> cases h2 : 'Y' == l <;> cases h3 : 'I' == l <;> simp [*]

theorem sampleTen_scaled : ScaledArc 10 sampleArc sampleTen := by
  refine ⟨rfl, fun l => ?_, by decide +kernel⟩
  simp only [GCode.param, sampleArc, sampleTen, List.find?_cons, List.find?_nil]
  cases h1 : 'X' == l <;> cases h2 : 'Y' == l <;> cases h3 : 'I' == l <;> simp [*]

/-- From inches to millimetres. -/
example (m : ArcMethod) : linearizeArc sampleMetric (at3 (254 / 10) 0 0) none (some m) false true ((254 / 10 : ℚ) * (1 / 100)) 3 =
    ((linearizeArc sampleArc (at3 1 0 0) none (some m) false true (1 / 100) 3).1.map
      (fun v => ⟨(254 / 10 : ℚ) * v.x, (254 / 10 : ℚ) * v.y, (254 / 10 : ℚ) * v.z⟩),
     (linearizeArc sampleArc (at3 1 0 0) none (some m) false true (1 / 100) 3).2) :=
  C105_scaled (254 / 10) (by decide +kernel) _ _ sampleMetric_scaled (at3 1 0 0) (at3 (254 / 10) 0 0) (by decide +kernel) (by decide +kernel)
    (by decide +kernel) none (some m) false true (1 / 100) 3 3 (fun h => nomatch h)

/-- In incremental distance mode, ten times as large, with one decimal less. -/
example (m : ArcMethod) : linearizeArc sampleTen (at3 10 0 0) none (some m) true true ((10 : ℚ) * (1 / 100)) 2 =
    ((linearizeArc sampleArc (at3 1 0 0) none (some m) true true (1 / 100) 3).1.map
      (fun v => ⟨(10 : ℚ) * v.x, (10 : ℚ) * v.y, (10 : ℚ) * v.z⟩),
     (linearizeArc sampleArc (at3 1 0 0) none (some m) true true (1 / 100) 3).2) :=
  C105_scaled 10 (by decide +kernel) _ _ sampleTen_scaled (at3 1 0 0) (at3 10 0 0) (by decide +kernel) (by decide +kernel)
    (by decide +kernel) none (some m) true true (1 / 100) 3 2 (fun _ => by norm_num)

/-- A quarter of a circle, mirrored at the X axis. -/
example (m : ArcMethod) : ∃ vs, linearizeArc sampleArc (at3 1 0 0) none (some m) false true (1 / 100) 3 = (vs, .done) ∧
    linearizeArc sampleMirror (at3 1 0 0) none (some m) false true (‖(1 : ℂ)‖ * (1 / 100)) 3 = (vs.map (similarV true 1 0 1 0), .done) := by
  have hs := at3_vector 1 0 0
  have hE : sampleArc.arcEnd ⟨(1 : ℚ), (0 : ℚ), (0 : ℚ)⟩ false = ⟨(0 : ℚ), (1 : ℚ), (0 : ℚ)⟩ := by
    simp [GCode.arcEnd, sampleArc, GCode.num?, GCode.param, Word.num]
  have hE' : sampleMirror.arcEnd ⟨(1 : ℚ), (0 : ℚ), (0 : ℚ)⟩ false = ⟨(0 : ℚ), (-1 : ℚ), (0 : ℚ)⟩ := by
    simp [GCode.arcEnd, sampleMirror, GCode.num?, GCode.param, Word.num]
  have hne : xy.coord ⟨(1 : ℚ), (0 : ℚ), (0 : ℚ)⟩ ≠ xy.coord ⟨(0 : ℚ), (1 : ℚ), (0 : ℚ)⟩ := by
    intro h; have := congrArg Complex.re h; simp [Pl.coord] at this
  obtain ⟨vs, h⟩ := (C62_done sampleArc _ m false true (1 / 100) 3 _ hs (by rw [hE]; exact hne)).2
    ⟨by decide +kernel, by norm_num, by decide +kernel, fun r hr => by simp [sampleArc, GCode.num?, GCode.param] at hr⟩
  have c1 : sampleArc.arcCenter ⟨(1 : ℚ), (0 : ℚ), (0 : ℚ)⟩ true = ⟨0, 0, 0⟩ := by
    simp [GCode.arcCenter, sampleArc, GCode.num?, GCode.param, Word.num, add_mk]
  have c2 : sampleMirror.arcCenter ⟨(1 : ℚ), (0 : ℚ), (0 : ℚ)⟩ true = ⟨0, 0, 0⟩ := by
    simp [GCode.arcCenter, sampleMirror, GCode.num?, GCode.param, Word.num, add_mk]
  refine ⟨vs, h, C105_similar sampleArc sampleMirror _ _ none (.inl rfl) m true (1 / 100) 3 3 vs true 1 0 one_ne_zero 1 0 ?_
    (by rw [hs, hE]; exact hne) h⟩
  rw [hs]
  refine ⟨by decide +kernel, by decide +kernel, by decide +kernel, ?_, ?_, ?_, ?_, ?_, ?_⟩
  · apply Complex.ext <;> simp [Pl.coord, similar]
  · rw [hE, hE']; apply Complex.ext <;> simp [Pl.coord, similar]
  · simp
  · rw [hE, hE']; simp
  · intro r hr; simp [sampleArc, GCode.num?, GCode.param] at hr
  · intro _
    rw [c1, c2, hE]
    refine ⟨by decide +kernel, ?_, fun _ => OneCentre.of_fits hne ?_⟩
    · apply Complex.ext <;> simp [Pl.coord, similar]
    · have e1 : xy.coord (⟨(1 : ℚ), (0 : ℚ), (0 : ℚ)⟩ : V3) - xy.coord ⟨0, 0, 0⟩ = 1 := by apply Complex.ext <;> simp [Pl.coord]
      have e2 : xy.coord (⟨(0 : ℚ), (1 : ℚ), (0 : ℚ)⟩ : V3) - xy.coord ⟨0, 0, 0⟩ = Complex.I := by apply Complex.ext <;> simp [Pl.coord]
      rw [e1, e2]; simp

/-- `G3 X2 I3`. -/
def sampleOutsideMirror : GCode := ⟨.arcMoveCCW, ⟨'G', .num 3⟩, [⟨'X', .num 2⟩, ⟨'I', .num 3⟩], false⟩

/-- From (0, 0) to (2, 0) around (3, 0), and its mirror image at the X axis. -/
example : ∃ a a', sampleOutside.arcOf ⟨(0 : ℚ), (0 : ℚ), (0 : ℚ)⟩ xy.normal Quat.one false true (1 / 100) = .ok a ∧
    sampleOutsideMirror.arcOf ⟨(0 : ℚ), (0 : ℚ), (0 : ℚ)⟩ xy.normal Quat.one false true (1 / 100) = .ok a' ∧
    xy.coord a'.pCenter ≠ similar true 1 0 (xy.coord a.pCenter) := by
  have hs := at3_vector 0 0 0
  have hE : sampleOutside.arcEnd ⟨(0 : ℚ), (0 : ℚ), (0 : ℚ)⟩ false = ⟨(2 : ℚ), (0 : ℚ), (0 : ℚ)⟩ := by
    simp [GCode.arcEnd, sampleOutside, GCode.num?, GCode.param, Word.num]
  have hE' : sampleOutsideMirror.arcEnd ⟨(0 : ℚ), (0 : ℚ), (0 : ℚ)⟩ false = ⟨(2 : ℚ), (0 : ℚ), (0 : ℚ)⟩ := by
    simp [GCode.arcEnd, sampleOutsideMirror, GCode.num?, GCode.param, Word.num]
  have hne : xy.coord ⟨(0 : ℚ), (0 : ℚ), (0 : ℚ)⟩ ≠ xy.coord ⟨(2 : ℚ), (0 : ℚ), (0 : ℚ)⟩ := by
    intro h; have := congrArg Complex.re h; simp [Pl.coord] at this
  obtain ⟨vs, h⟩ := (C62_done sampleOutside _ .inside false true (1 / 100) 3 _ hs (by rw [hE]; exact hne)).2
    ⟨by decide +kernel, by norm_num, by decide +kernel, fun r hr => by simp [sampleOutside, GCode.num?, GCode.param] at hr⟩
  obtain ⟨vs', h'⟩ := (C62_done sampleOutsideMirror _ .inside false true (1 / 100) 3 _ hs (by rw [hE']; exact hne)).2
    ⟨by decide +kernel, by norm_num, by decide +kernel, fun r hr => by simp [sampleOutsideMirror, GCode.num?, GCode.param] at hr⟩
  have hq : ∀ {p : Pl} {q : Quat}, Cls.selectXYPlane = p.cls → planeQuat p.cls = some q → p = xy ∧ q = Quat.one := by
    intro p q hp hq
    have : p = xy := by cases p <;> first | rfl | cases hp
    subst this
    simp [planeQuat, Pl.cls] at hq
    exact ⟨rfl, hq.symm⟩
  obtain ⟨p, m1, s, q, a, ls, D, -⟩ := linearize_done h
  obtain ⟨p', m2, s', q', a', ls', D', -⟩ := linearize_done h'
  obtain ⟨rfl, rfl⟩ := hq D.plane D.quat
  obtain ⟨rfl, rfl⟩ := hq D'.plane D'.quat
  have k := D.ok
  have k' := D'.ok
  rw [← D.start, hs] at k
  rw [← D'.start, hs] at k'
  refine ⟨a, a', k, k', ?_⟩
  have c1 : sampleOutside.arcCenter ⟨(0 : ℚ), (0 : ℚ), (0 : ℚ)⟩ true = ⟨(3 : ℚ), 0, 0⟩ := by
    simp [GCode.arcCenter, sampleOutside, GCode.num?, GCode.param, Word.num, add_mk]
  have c2 : sampleOutsideMirror.arcCenter ⟨(0 : ℚ), (0 : ℚ), (0 : ℚ)⟩ true = ⟨(3 : ℚ), 0, 0⟩ := by
    simp [GCode.arcCenter, sampleOutsideMirror, GCode.num?, GCode.param, Word.num, add_mk]
  refine C105_outside 1 0 one_ne_zero _ _ _ _ _ true _ _ a a' k k' (by rw [hE]; exact hne) (by decide +kernel) (by decide +kernel)
    ?_ ?_ ?_ (3 / 2) (by rw [hE, c1]; apply Complex.ext <;> simp [Pl.coord]) (.inr (by norm_num))
  · apply Complex.ext <;> simp [Pl.coord, similar]
  · rw [hE, hE']; apply Complex.ext <;> simp [Pl.coord, similar]
  · rw [c1, c2]; apply Complex.ext <;> simp [Pl.coord, similar]

end Pygcode
