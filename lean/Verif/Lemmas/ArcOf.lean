import Verif.Lemmas.ArcGeom

/-!
# What `linearize_arc` computes before it asks for vertices
-/

namespace Pygcode
open Pl

/-- Half of the span from start to end. -/
noncomputable def halfSpan (S E : ℂ) : ℂ := (E - S) / 2

/-- From the middle of the span to the centre on its right. -/
noncomputable def toRight (S E : ℂ) (r : ℝ) : ℂ :=
  -Complex.I * (halfSpan S E / (‖halfSpan S E‖ : ℝ)) * (√(r ^ 2 - ‖halfSpan S E‖ ^ 2) : ℝ)

/-- The two points at distance `r` from start and end: left and right of the span. -/
noncomputable def leftCenter (S E : ℂ) (r : ℝ) : ℂ := S + halfSpan S E - toRight S E r
noncomputable def rightCenter (S E : ℂ) (r : ℝ) : ℂ := S + halfSpan S E + toRight S E r

/-- The values computed by `arcOf`, in complex coordinates. -/
structure ArcFacts (p : Pl) (g : GCode) (s : V3) (q : Quat) (incr arcIncr : Bool) (e : ℝ) (a : Arc) : Prop where
  params : g.assertArcParams = .ok ()
  maxError : a.maxError = e
  normal : a.normal = p.normal
  cStart : p.coord a.pStart = p.coord s
  hpStart : p.height a.pStart = 0
  cEnd : p.coord a.pEnd = p.coord (g.arcEnd s incr)
  hpEnd : p.height a.pEnd = 0
  hpCenter : p.height a.pCenter = 0
  hStart : a.hStart = p.normal.mul (p.height s)
  hEnd : a.hEnd = p.normal.mul (p.height (g.arcEnd s incr))
  reach : ‖halfSpan (p.coord s) (p.coord (g.arcEnd s incr))‖ ≤ a.radius
  radiusR : ∀ r, g.num? 'R' = some r → a.radius = |(r : ℝ)| ∧ e ≤ ‖p.coord s - p.coord (g.arcEnd s incr)‖
  radiusC : g.num? 'R' = none → a.radius =
    (‖p.coord s - p.coord (g.arcCenter s arcIncr)‖ + ‖p.coord (g.arcEnd s incr) - p.coord (g.arcCenter s arcIncr)‖) / 2
  centerR : ∀ r, g.num? 'R' = some r → p.coord a.pCenter =
    if (g.cls.isSub .arcMoveCW = true ↔ r < 0) then leftCenter (p.coord s) (p.coord (g.arcEnd s incr)) a.radius
    else rightCenter (p.coord s) (p.coord (g.arcEnd s incr)) a.radius
  centerC : g.num? 'R' = none →
    (p.coord a.pCenter = leftCenter (p.coord s) (p.coord (g.arcEnd s incr)) a.radius ∧
      ‖leftCenter (p.coord s) (p.coord (g.arcEnd s incr)) a.radius - p.coord (g.arcCenter s arcIncr)‖ <
      ‖rightCenter (p.coord s) (p.coord (g.arcEnd s incr)) a.radius - p.coord (g.arcCenter s arcIncr)‖) ∨
    (p.coord a.pCenter = rightCenter (p.coord s) (p.coord (g.arcEnd s incr)) a.radius ∧
      ‖rightCenter (p.coord s) (p.coord (g.arcEnd s incr)) a.radius - p.coord (g.arcCenter s arcIncr)‖ ≤
      ‖leftCenter (p.coord s) (p.coord (g.arcEnd s incr)) a.radius - p.coord (g.arcCenter s arcIncr)‖)
  angle : a.angle =
    if g.cls.isSub .arcMoveCW then
      fmod (atan2 (q.apply (a.pStart - a.pCenter)).y (q.apply (a.pStart - a.pCenter)).x -
        atan2 (q.apply (a.pEnd - a.pCenter)).y (q.apply (a.pEnd - a.pCenter)).x) (2 * Real.pi)
    else -fmod (atan2 (q.apply (a.pEnd - a.pCenter)).y (q.apply (a.pEnd - a.pCenter)).x -
        atan2 (q.apply (a.pStart - a.pCenter)).y (q.apply (a.pStart - a.pCenter)).x) (2 * Real.pi)

section
variable (p : Pl) (s t : V3) (r : ℝ)

theorem coord_half : p.coord ((planeProjection t p.normal - planeProjection s p.normal).mul (1 / 2)) =
    halfSpan (p.coord s) (p.coord t) := by
  simp [halfSpan, div_eq_mul_inv]

theorem height_half : p.height ((planeProjection t p.normal - planeProjection s p.normal).mul (1 / 2)) = 0 := by
  simp

theorem abs_half : ((planeProjection t p.normal - planeProjection s p.normal).mul (1 / 2)).abs =
    ‖halfSpan (p.coord s) (p.coord t)‖ := by
  rw [abs_flat p _ (height_half p s t), coord_half]

theorem coord_right : p.coord ((((planeProjection t p.normal - planeProjection s p.normal).mul (1 / 2)).normalized.cross
    p.normal).mul √(r ^ 2 - ‖halfSpan (p.coord s) (p.coord t)‖ ^ 2)) = toRight (p.coord s) (p.coord t) r := by
  rw [coord_mul, coord_cross, coord_normalized _ _ (height_half p s t), coord_half]
  rfl

theorem height_right (k : ℝ) : p.height ((((planeProjection t p.normal - planeProjection s p.normal).mul (1 / 2)).normalized.cross
    p.normal).mul k) = 0 := by
  rw [height_mul, height_cross, zero_mul]

end

theorem abs_sub_flat (p : Pl) (a b : V3) (ha : p.height a = 0) (hb : p.height b = 0) :
    (a - b).abs = ‖p.coord a - p.coord b‖ := by
  rw [abs_flat p _ (by rw [height_sub, ha, hb, sub_zero]), coord_sub]

theorem arcOf_ok (p : Pl) (g : GCode) (s : V3) (q : Quat) (incr arcIncr : Bool) (e : ℝ) (a : Arc)
    (h : g.arcOf s p.normal q incr arcIncr e = .ok a) : ArcFacts p g s q incr arcIncr e a := by
  unfold GCode.arcOf at h
  cases hpar : g.assertArcParams with
  | error x => rw [hpar] at h; cases h
  | ok u =>
    rw [hpar] at h
    have hz1 := height_half p s (g.arcEnd s incr)
    have hz2 := fun k => height_right p s (g.arcEnd s incr) k
    have hsx : p.height (planeProjection s p.normal) = 0 := height_proj p s
    have hex : p.height (planeProjection (g.arcEnd s incr) p.normal) = 0 := height_proj p _
    cases hR : g.num? 'R' with
    | some r =>
      rw [hR] at h
      simp only [bind, Except.bind] at h
      by_cases hlt : (planeProjection s p.normal - planeProjection (g.arcEnd s incr) p.normal).abs < e
      · rw [if_pos hlt] at h; cases h
      · rw [if_neg hlt] at h
        simp only [abs_half p s (g.arcEnd s incr)] at h
        by_cases hr : |(r : ℝ)| < ‖halfSpan (p.coord s) (p.coord (g.arcEnd s incr))‖
        · rw [if_pos hr] at h; cases h
        · rw [if_neg hr] at h
          simp only [Except.ok.injEq] at h
          subst h
          refine ⟨hpar, rfl, rfl, coord_proj p s, hsx, coord_proj p _, hex, ?_, by simp, by simp, not_lt.1 hr,
            ?_, ?_, ?_, ?_, rfl⟩
          · simp only
            split_ifs <;> simp only [height_add, height_sub, hz1, hz2, hsx, add_zero, sub_zero]
          · rintro r' hr'
            obtain rfl : r = r' := by rw [hR] at hr'; exact Option.some.inj hr'
            rw [abs_sub_flat p _ _ hsx hex, coord_proj, coord_proj] at hlt
            exact ⟨rfl, not_lt.1 hlt⟩
          · intro h0; rw [hR] at h0; cases h0
          · rintro r' hr'
            obtain rfl : r = r' := by rw [hR] at hr'; exact Option.some.inj hr'
            simp only
            split_ifs <;> simp only [coord_add, coord_sub, coord_right, coord_half, coord_proj] <;> rfl
          · intro h0; rw [hR] at h0; cases h0
    | none =>
      rw [hR] at h
      have hgx : p.height (planeProjection (g.arcCenter s arcIncr) p.normal) = 0 := height_proj p _
      simp only [bind, Except.bind, abs_half p s (g.arcEnd s incr), abs_sub_flat p _ _ hsx hgx,
        abs_sub_flat p _ _ hex hgx, coord_proj] at h
      set rad := (‖p.coord s - p.coord (g.arcCenter s arcIncr)‖ +
        ‖p.coord (g.arcEnd s incr) - p.coord (g.arcCenter s arcIncr)‖) / 2 with hrad
      by_cases hr : rad < ‖halfSpan (p.coord s) (p.coord (g.arcEnd s incr))‖
      · rw [if_pos hr] at h; cases h
      · rw [if_neg hr] at h
        simp only [Except.ok.injEq] at h
        subst h
        refine ⟨hpar, rfl, rfl, coord_proj p s, hsx, coord_proj p _, hex, ?_, by simp, by simp, not_lt.1 hr,
          ?_, ?_, ?_, ?_, rfl⟩
        · simp only
          split_ifs <;> simp only [height_add, height_sub, hz1, hz2, hsx, add_zero, sub_zero]
        · intro r h0; rw [hR] at h0; cases h0
        · intro _; rfl
        · intro r h0; rw [hR] at h0; cases h0
        · intro _
          simp only
          rw [abs_sub_flat p _ _ (by simp only [height_add, height_sub, hz1, hz2, hsx, add_zero, sub_zero]) hgx,
            abs_sub_flat p _ _ (by simp only [height_add, height_sub, hz1, hz2, hsx, add_zero, sub_zero]) hgx]
          simp only [coord_add, coord_sub, coord_right, coord_half, coord_proj]
          by_cases hlt : ‖leftCenter (p.coord s) (p.coord (g.arcEnd s incr)) rad - p.coord (g.arcCenter s arcIncr)‖ <
              ‖rightCenter (p.coord s) (p.coord (g.arcEnd s incr)) rad - p.coord (g.arcCenter s arcIncr)‖
          · left
            refine ⟨?_, hlt⟩
            unfold leftCenter rightCenter at hlt
            rw [if_pos hlt]
            simp only [coord_add, coord_sub, coord_right, coord_half, coord_proj]
            rfl
          · right
            refine ⟨?_, not_lt.1 hlt⟩
            unfold leftCenter rightCenter at hlt
            rw [if_neg hlt]
            simp only [coord_add, coord_sub, coord_right, coord_half, coord_proj]
            rfl

end Pygcode
