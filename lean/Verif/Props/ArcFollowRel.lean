import Verif.Props.ArcFollow
import Verif.Props.Instances2

/-!
# The lines follow the arc in incremental mode too (C83)

The increments are rounded, and what was lost by rounding is made up for with the next increment: the path goes along
the arc within the error of the method and the rounding of one increment.
-/

namespace Pygcode
open Pl Machine Props

namespace Props

/-- Points of corresponding segments are as near as the ends are. -/
theorem onSegment_near (p : Pl) {l l' : V3 × V3} {δ t : ℝ} (h1 : ‖p.coord l'.1 - p.coord l.1‖ ≤ δ)
    (h2 : ‖p.coord l'.2 - p.coord l.2‖ ≤ δ) (h0 : 0 ≤ t) (ht : t ≤ 1) :
    ‖p.coord (onSegment l' t) - p.coord (onSegment l t)‖ ≤ δ := by
  have e : p.coord (onSegment l' t) - p.coord (onSegment l t) =
      ((1 - t : ℝ) : ℂ) * (p.coord l'.1 - p.coord l.1) + (t : ℂ) * (p.coord l'.2 - p.coord l.2) := by
    have a := coord_onSegment p l' 0 t
    have b := coord_onSegment p l 0 t
    rw [sub_zero] at a b
    rw [a, b]; push_cast; ring
  rw [e]
  refine (norm_add_le _ _).trans ?_
  rw [norm_mul, norm_mul, Complex.norm_real, Complex.norm_real, Real.norm_of_nonneg h0,
    Real.norm_of_nonneg (by linarith : (0 : ℝ) ≤ 1 - t)]
  have a := mul_le_mul_of_nonneg_left h1 (by linarith : (0 : ℝ) ≤ 1 - t)
  have b := mul_le_mul_of_nonneg_left h2 h0
  linarith

/-- Corresponding segments of two paths from the same start. -/
theorem segments_near (p : Pl) {δ : ℝ} (s s' : V3) (hs : ‖p.coord s' - p.coord s‖ ≤ δ) {vs' vs : List V3}
    (h : List.Forall₂ (fun a b => ‖p.coord a - p.coord b‖ ≤ δ) vs' vs) :
    List.Forall₂ (fun l' l : V3 × V3 => ‖p.coord l'.1 - p.coord l.1‖ ≤ δ ∧ ‖p.coord l'.2 - p.coord l.2‖ ≤ δ)
      (segments s' vs') (segments s vs) := by
  induction h generalizing s s' with
  | nil => exact .nil
  | cons hv _ ih => exact .cons ⟨hs, hv⟩ (ih _ _ hv)

theorem forall₂_get {α β : Type} {R : α → β → Prop} {l : List α} {l' : List β} (h : List.Forall₂ R l l') {i : ℕ} {b : β}
    (hb : l'[i]? = some b) : ∃ a, l[i]? = some a ∧ R a b := by
  induction h generalizing i with
  | nil => cases hb
  | cons hr _ ih =>
    cases i with
    | zero => cases hb; exact ⟨_, rfl, hr⟩
    | succ i => exact ih hb

theorem alongside_near {p : Pl} {ls' ls : List (V3 × V3)} {σ : ℝ → ℂ} {b δ : ℝ}
    (h : List.Forall₂ (fun l' l : V3 × V3 => ‖p.coord l'.1 - p.coord l.1‖ ≤ δ ∧ ‖p.coord l'.2 - p.coord l.2‖ ≤ δ) ls' ls)
    (ha : Alongside p ls σ b) : Alongside p ls' σ (b + δ) := by
  obtain ⟨pos, h1, h2, h3, h4⟩ := ha
  refine ⟨pos, fun f h0 hf => ?_, h2, h3, by rw [h.length_eq]; exact h4⟩
  obtain ⟨l, hl, ha, hb, hc⟩ := h1 f h0 hf
  obtain ⟨l', hl', hd⟩ := forall₂_get h hl
  refine ⟨l', hl', ha, hb, ?_⟩
  have := norm_sub_le_norm_sub_add_norm_sub (p.coord (onSegment l' (pos f).2)) (p.coord (onSegment l (pos f).2)) (σ f)
  have := onSegment_near p hd.1 hd.2 ha hb
  linarith

theorem nearCurve_near {p : Pl} {ls' ls : List (V3 × V3)} {σ : ℝ → ℂ} {b δ : ℝ}
    (h : List.Forall₂ (fun l' l : V3 × V3 => ‖p.coord l'.1 - p.coord l.1‖ ≤ δ ∧ ‖p.coord l'.2 - p.coord l.2‖ ≤ δ) ls' ls)
    (ha : NearCurve p ls σ b) : NearCurve p ls' σ (b + δ) := by
  intro l' hl' t h0 ht
  obtain ⟨i, hi⟩ := List.mem_iff_getElem?.1 hl'
  obtain ⟨l, hl, hd⟩ := forall₂_get h.flip hi
  obtain ⟨f, hf0, hf1, hc⟩ := ha l (List.mem_of_getElem? hl) t h0 ht
  refine ⟨f, hf0, hf1, ?_⟩
  have := norm_sub_le_norm_sub_add_norm_sub (p.coord (onSegment l' t)) (p.coord (onSegment l t)) (σ f)
  have := onSegment_near p hd.1 hd.2 h0 ht
  linarith

/-- Half a unit of the last place on both axes. -/
theorem near_coord {d : ℤ} {a b : V3} (h : Near d a b) : ‖xy.coord a - xy.coord b‖ ≤ √2 / 2 / 10 ^ d := by
  have hd : (0 : ℝ) < 10 ^ d := by positivity
  have e : xy.coord a - xy.coord b = ⟨a.x - b.x, a.y - b.y⟩ := rfl
  rw [e, Complex.norm_def, Complex.normSq_mk]
  have h1 := sq_le_sq' (neg_le_of_abs_le h.1) (le_of_abs_le h.1)
  have h2 := sq_le_sq' (neg_le_of_abs_le h.2.1) (le_of_abs_le h.2.1)
  refine Real.sqrt_le_iff.2 ⟨by positivity, ?_⟩
  have e2 : (√2 / 2 / (10 : ℝ) ^ d) ^ 2 = 2 * (1 / 2 / 10 ^ d) ^ 2 := by
    have : (√2 : ℝ) ^ 2 = 2 := Real.sq_sqrt (by norm_num)
    rw [div_pow, div_pow, this, div_pow]; ring
  rw [e2]
  nlinarith

end Props

/-- **C83** in incremental mode, XY plane: with the increments added up, the path follows the arc within the error and
half a unit of the last place on both axes. -/
theorem C83_incremental (g : GCode) (start : Position) (plane : Option Cls)
    (hpl : plane = none ∨ plane = some .selectXYPlane) (m : ArcMethod) (arcIncr : Bool) (e : ℝ) (d : ℤ) (vs : List V3)
    (s : V3) (hs : start.vector = s) (hne : xy.coord s ≠ xy.coord (g.arcEnd s true))
    (h : linearizeArc g start plane (some m) true arcIncr e d = (vs, .done)) :
    ∃ (c : ℂ) (A : ℝ), turned c (xy.coord s) A 0 = xy.coord s ∧ turned c (xy.coord s) A 1 = xy.coord (g.arcEnd s true) ∧
      (g.cls.isSub .arcMoveCW = true → 0 < A ∧ A < 2 * Real.pi) ∧
      (g.cls.isSub .arcMoveCW = false → -(2 * Real.pi) < A ∧ A < 0) ∧
      (∀ x, g.num? 'R' = some x → ‖xy.coord s - c‖ = |(x : ℝ)| ∧ (0 < x → |A| ≤ Real.pi) ∧ (x < 0 → Real.pi ≤ |A|)) ∧
      (g.num? 'R' = none → MeanCentre (xy.coord s) (xy.coord (g.arcEnd s true)) (xy.coord (g.arcCenter s arcIncr)) c) ∧
      Alongside xy (segments s (summed s vs)) (turned c (xy.coord s) A) (allowed m e + √2 / 2 / 10 ^ d) ∧
      NearCurve xy (segments s (summed s vs)) (turned c (xy.coord s) A) (allowed m e + √2 / 2 / 10 ^ d) := by
  obtain ⟨p, m', s', q, a, ls, D, rfl⟩ := linearize_done h
  obtain rfl : m = m' := Option.some.inj D.method
  obtain rfl : s = s' := by exact hs.symm.trans D.start
  have hp : p = xy := by
    have := D.plane
    rcases hpl with rfl | rfl <;> cases p <;> first | rfl | (exact absurd this (by decide))
  subst hp
  obtain rfl : Quat.one = q := Option.some.inj D.quat
  obtain ⟨h1, h2, h3, h4⟩ := C56_center xy g s _ true arcIncr e a D.ok hne
  obtain ⟨h5, h6, h7⟩ := C58_xy_partial g s true arcIncr e a D.ok
  have F := arcOf_ok xy g s _ true arcIncr e a D.ok
  have hang := angle_ne xy a (sweeps_xy g s true arcIncr e a D.ok) (by rw [F.cStart, F.cEnd]; exact hne)
  have hend : turned (xy.coord a.pCenter) (xy.coord s) a.angle 1 = xy.coord (g.arcEnd s true) := by
    unfold turned
    rw [one_mul, ← h5]; ring
  refine ⟨xy.coord a.pCenter, a.angle, turned_zero _ _ _, hend, ?_, ?_, ?_, ?_, ?_⟩
  · intro hc; exact ⟨lt_of_le_of_ne (h6 hc).1 (Ne.symm hang), (h6 hc).2⟩
  · intro hc; exact ⟨(h7 hc).1, lt_of_le_of_ne (h7 hc).2 hang⟩
  · intro x hx
    have h8 := C58_half_partial g s true arcIncr e a D.ok hne x hx
    exact ⟨by rw [h3, C56_radius xy g s _ true arcIncr e a D.ok x hx], h8.1, h8.2⟩
  · intro hR; exact C121_mean xy g s _ true arcIncr e a D.ok hne hR
  · obtain ⟨ls', h9, h10, h11⟩ := C83_follow xy g s _ true arcIncr e a D.ok hne D.pos hend m
    obtain rfl : ls = ls' := by have := D.verts; rw [h9] at this; exact (Except.ok.inj this).symm
    obtain ⟨-, -, h12⟩ := done_shape D
    rw [if_pos rfl]
    have hn := segments_near xy (δ := √2 / 2 / 10 ^ d) s s (by rw [sub_self, norm_zero]; positivity)
      ((C60_no_drift d s (ls.map Prod.snd)).imp fun _ _ h => near_coord h)
    rw [← h12] at hn
    exact ⟨alongside_near hn h10, nearCurve_near hn h11⟩

/-- The quarter circle `G91 G3 X-1 Y1 I-1` from (1, 0): within 1/200 of the method and 0.00071 of the rounding. -/
example : ∃ vs c A, linearizeArc sampleArcRel (at3 1 0 0) (some .selectXYPlane) (some .mid) true true (1 / 100) 3 = (vs, .done) ∧
    Alongside xy (segments ⟨(1 : ℚ), (0 : ℚ), (0 : ℚ)⟩ (summed ⟨(1 : ℚ), (0 : ℚ), (0 : ℚ)⟩ vs))
      (turned c (xy.coord ⟨(1 : ℚ), (0 : ℚ), (0 : ℚ)⟩) A) (1 / 100 / 2 + √2 / 2 / 10 ^ (3 : ℤ)) := by
  have hs := at3_vector 1 0 0
  have hE : sampleArcRel.arcEnd ⟨(1 : ℚ), (0 : ℚ), (0 : ℚ)⟩ true = ⟨0, 1, 0⟩ := by
    simp [GCode.arcEnd, sampleArcRel, GCode.num?, GCode.param, Word.num, add_mk]
  have hne : xy.coord ⟨(1 : ℚ), (0 : ℚ), (0 : ℚ)⟩ ≠ xy.coord (sampleArcRel.arcEnd ⟨(1 : ℚ), (0 : ℚ), (0 : ℚ)⟩ true) := by
    rw [hE]; intro h; have := congrArg Complex.re h; simp [Pl.coord] at this
  have hR : sampleArcRel.num? 'R' = none := by decide +kernel
  obtain ⟨vs, h⟩ := (C62_done sampleArcRel _ .mid true true (1 / 100) 3 _ hs hne).2
    ⟨by decide +kernel, by norm_num, by decide +kernel, fun r hr => by rw [hR] at hr; cases hr⟩
  obtain ⟨c, A, -, -, -, -, -, -, h1, -⟩ := C83_incremental _ _ _ (.inr rfl) _ _ _ _ _ _ hs hne h
  exact ⟨vs, c, A, h, h1⟩

end Pygcode
