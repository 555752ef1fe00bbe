import Verif.Lemmas.ArcPlane

/-!
# The three approximation methods
-/

namespace Pygcode
open Arc

/-! ## Wedges -/

theorem err_eq (a : Arc) : a.err = min a.maxError a.radius := by
  unfold Arc.err
  split_ifs with h
  · exact (min_eq_right h.le).symm
  · exact (min_eq_left (not_lt.1 h)).symm

/-- Cosine of half the largest wedge. -/
noncomputable def wedgeCos (m : ArcMethod) (r e : ℝ) : ℝ :=
  match m with
  | .inside => (r - e) / r
  | .outside => r / (r + e)
  | .mid => (r - e / 2) / (r + e / 2)

theorem wedgeCos_range (m : ArcMethod) {r e : ℝ} (he : 0 < e) (her : e ≤ r) :
    0 ≤ wedgeCos m r e ∧ wedgeCos m r e < 1 := by
  have hr : 0 < r := he.trans_le her
  cases m <;> simp only [wedgeCos]
  · exact ⟨div_nonneg (by linarith) hr.le, by rw [div_lt_one hr]; linarith⟩
  · exact ⟨by positivity, by rw [div_lt_one (by positivity)]; linarith⟩
  · exact ⟨div_nonneg (by linarith) (by linarith), by rw [div_lt_one (by linarith)]; linarith⟩

theorem outside_pos {r e : ℝ} (he : 0 < e) (her : e ≤ r) : 0 < wedgeCos .outside r e := by
  have hr : 0 < r := he.trans_le her
  simp only [wedgeCos]; positivity

theorem maxWedge_ok (a : Arc) (m : ArcMethod) (he : 0 < a.maxError) (hr : 0 < a.radius) :
    a.maxWedge m = .ok (2 * Real.arccos (wedgeCos m a.radius (min a.maxError a.radius))) := by
  have hm : 0 < min a.maxError a.radius := lt_min he hr
  have hmr : min a.maxError a.radius ≤ a.radius := min_le_right _ _
  obtain ⟨h1, h2⟩ := wedgeCos_range m hm hmr
  have key : ∀ x y : ℝ, y ≠ 0 → x / y = wedgeCos m a.radius (min a.maxError a.radius) →
      (do let z ← divE x y; let w ← acosE z; Except.ok |2 * w| : Except Err ℝ) =
        .ok (2 * Real.arccos (wedgeCos m a.radius (min a.maxError a.radius))) := by
    intro x y hy hxy
    simp only [divE, if_neg hy, bind, Except.bind, acosE, hxy]
    rw [if_pos ⟨by linarith, h2.le⟩]
    simp only [abs_mul, abs_of_nonneg (Real.arccos_nonneg _), abs_two]
  cases m <;> simp only [maxWedge, err_eq]
  · exact key _ _ hr.ne' rfl
  · exact key _ _ (by linarith) rfl
  · exact key _ _ (by linarith) rfl

/-- Everything about the wedges of a proper arc. -/
structure Wedges (a : Arc) (m : ArcMethod) (n : ℕ) (w : ℝ) : Prop where
  count : a.wedgeCount m = .ok n
  angle : a.wedgeAngle m = .ok w
  pos : 0 < n
  total : w * n = a.angle
  small : ∀ W, a.maxWedge m = .ok W → |w| ≤ W ∧ W ≤ Real.pi
  least : ∀ W, a.maxWedge m = .ok W → ∀ k : ℕ, |a.angle| ≤ W * k → n ≤ k
  cos : wedgeCos m a.radius (min a.maxError a.radius) ≤ Real.cos (w / 2)

theorem wedges (a : Arc) (m : ArcMethod) (he : 0 < a.maxError) (hr : 0 < a.radius) (ha : a.angle ≠ 0) :
    ∃ n w, Wedges a m n w := by
  have hm : 0 < min a.maxError a.radius := lt_min he hr
  have hmr : min a.maxError a.radius ≤ a.radius := min_le_right _ _
  obtain ⟨h1, h2⟩ := wedgeCos_range m hm hmr
  set x := wedgeCos m a.radius (min a.maxError a.radius) with hx
  have hmax := maxWedge_ok a m he hr
  rw [← hx] at hmax
  set W := 2 * Real.arccos x with hW
  have hWpos : 0 < W := by
    have := Real.arccos_pos.2 h2
    positivity
  have hWpi : W ≤ Real.pi := by
    have := Real.arccos_le_pi_div_two.2 h1
    linarith
  have hq : 0 < |a.angle| / W := div_pos (abs_pos.2 ha) hWpos
  set n := ⌈|a.angle| / W⌉₊ with hn
  have hnpos : 0 < n := Nat.ceil_pos.2 hq
  have hcount : a.wedgeCount m = .ok n := by
    unfold Arc.wedgeCount
    rw [hmax]
    simp only [bind, Except.bind, divE, if_neg hWpos.ne']
    rfl
  have hnR : (0 : ℝ) < n := by exact_mod_cast hnpos
  have hang : a.wedgeAngle m = .ok (a.angle / n) := by
    unfold Arc.wedgeAngle
    rw [hcount]
    simp only [bind, Except.bind, divE, if_neg hnR.ne']
  have hle : |a.angle / n| ≤ W := by
    rw [abs_div, abs_of_pos hnR, div_le_iff₀ hnR]
    have := Nat.le_ceil (|a.angle| / W)
    rw [div_le_iff₀ hWpos] at this
    rw [mul_comm]; exact this
  refine ⟨n, a.angle / n, hcount, hang, hnpos, div_mul_cancel₀ _ hnR.ne', ?_, ?_, ?_⟩
  · intro W' h'
    rw [hmax] at h'
    cases h'
    exact ⟨hle, hWpi⟩
  · intro W' h' k hk
    rw [hmax] at h'
    cases h'
    refine Nat.ceil_le.2 ?_
    rw [div_le_iff₀ hWpos, mul_comm]
    exact hk
  · have h3 : x = Real.cos (W / 2) := by
      rw [hW, mul_div_cancel_left₀ _ (two_ne_zero), Real.cos_arccos (by linarith) h2.le]
    rw [← hx, h3, ← Real.cos_abs (a.angle / n / 2)]
    apply Real.cos_le_cos_of_nonneg_of_le_pi (abs_nonneg _)
    · linarith [Real.pi_pos]
    · rw [abs_div, abs_two]
      linarith

/-- `1 + tan² (w/4)` in terms of `cos (w/2)`. -/
theorem tan_quarter (w : ℝ) (h : Real.cos (w / 4) ≠ 0) :
    (1 + Real.tan (w / 4) ^ 2) * Real.cos (w / 2) = 1 - Real.tan (w / 4) ^ 2 := by
  have h1 : Real.cos (w / 2) = 2 * Real.cos (w / 4) ^ 2 - 1 := by
    rw [show w / 2 = 2 * (w / 4) by ring, Real.cos_two_mul]
  have h2 : Real.tan (w / 4) ^ 2 * Real.cos (w / 4) ^ 2 = 1 - Real.cos (w / 4) ^ 2 := by
    rw [← mul_pow, Real.tan_mul_cos h]
    linarith [Real.sin_sq_add_cos_sq (w / 4)]
  rw [h1]
  linear_combination 2 * h2

/-- Smallest and largest distance from the centre for given radius and error. -/
noncomputable def lowest (m : ArcMethod) (r e : ℝ) : ℝ :=
  match m with
  | .inside => r - e
  | .outside => r
  | .mid => r - e / 2
noncomputable def highest (m : ArcMethod) (r e : ℝ) : ℝ :=
  match m with
  | .inside => r
  | .outside => r + e
  | .mid => r + e / 2

/-- The radius on which the vertices lie. -/
theorem outer_ok (a : Arc) (m : ArcMethod) (he : 0 < a.maxError) (hr : 0 < a.radius) {n : ℕ} {w : ℝ}
    (hw : Wedges a m n w) : ∃ R, a.outerRadius m = .ok R ∧ a.radius ≤ R ∧
      R ≤ highest m a.radius (min a.maxError a.radius) ∧
      lowest m a.radius (min a.maxError a.radius) ≤ R * Real.cos (w / 2) ∧
      (phase m = false → R = a.radius) := by
  have hm : 0 < min a.maxError a.radius := lt_min he hr
  have hmr : min a.maxError a.radius ≤ a.radius := min_le_right _ _
  have hc := hw.cos
  have hsm := hw.small _ (maxWedge_ok a m he hr)
  set e := min a.maxError a.radius with hedef
  set r := a.radius with hrdef
  cases m with
  | inside =>
    refine ⟨r, rfl, le_refl _, le_refl _, ?_, fun _ => rfl⟩
    simp only [wedgeCos, lowest] at hc ⊢
    rw [div_le_iff₀ hr] at hc
    linarith
  | outside =>
    simp only [wedgeCos] at hc
    have hpos : 0 < Real.cos (w / 2) := lt_of_lt_of_le (outside_pos hm hmr) hc
    refine ⟨r / Real.cos (w / 2), ?_, ?_, ?_, ?_, fun h => by cases h⟩
    · simp only [Arc.outerRadius, hw.angle, bind, Except.bind, divE, if_neg hpos.ne']
      rw [abs_of_pos (div_pos hr hpos)]
    · rw [le_div_iff₀ hpos]
      nlinarith [Real.cos_le_one (w / 2)]
    · simp only [highest]
      rw [div_le_iff₀ (by linarith)] at hc
      rw [div_le_iff₀ hpos]
      linarith
    · simp only [lowest]
      rw [div_mul_cancel₀ _ hpos.ne']
  | mid =>
    simp only [wedgeCos] at hc
    have hq : 0 < Real.cos (w / 4) := by
      apply Real.cos_pos_of_mem_Ioo
      have := abs_le.1 hsm.1
      constructor <;> linarith [Real.pi_pos, hsm.2]
    have ht := tan_quarter w hq.ne'
    set t := Real.tan (w / 4) ^ 2 with htdef
    have ht0 : 0 ≤ t := sq_nonneg _
    have hrt : r * t ≤ e / 2 := by
      rw [div_le_iff₀ (by linarith)] at hc
      nlinarith
    refine ⟨r + r * t, ?_, by nlinarith, ?_, ?_, fun h => by cases h⟩
    · simp only [Arc.outerRadius, hw.angle, bind, Except.bind]
      rfl
    · simp only [highest]; linarith
    · simp only [lowest]
      have : (r + r * t) * Real.cos (w / 2) = r * (1 - t) := by rw [← ht]; ring
      rw [this]
      nlinarith

/-! ## Lines -/

theorem lines_zip (s : V3) (es : List V3) : lines s es = (s :: es).zip es := by
  induction es generalizing s with
  | nil => rfl
  | cons e es ih => simp [lines, ih]

theorem takeWhile_range (b : Bool) (n : ℕ) :
    (List.range n).takeWhile (fun i => b || decide (i + 1 < n)) = List.range (if b then n else n - 1) := by
  cases b with
  | true =>
    simp only [Bool.true_or, if_true]
    induction List.range n with
    | nil => rfl
    | cons x xs ih => rw [List.takeWhile_cons_of_pos rfl, ih]
  | false =>
    cases n with
    | zero => rfl
    | succ n =>
      rw [List.range_succ, List.takeWhile_append_of_pos]
      · simp
      · intro i hi
        simpa using hi

/-- Number of vertices between start and end. -/
def inner (m : ArcMethod) (n : ℕ) : ℕ := if phase m then n else n - 1

theorem iterVertices_ok (a : Arc) (m : ArcMethod) {n : ℕ} {w R : ℝ} (hw : Wedges a m n w) (hR : a.outerRadius m = .ok R) :
    a.iterVertices m = .ok (lines (a.pCenter + (a.pStart - a.pCenter) + a.hStart)
      ((List.range (inner m n)).map (a.vertex m w ((a.pStart - a.pCenter).normalized.mul R)) ++ [a.pEnd + a.hEnd])) := by
  unfold Arc.iterVertices
  rw [hR, hw.count, hw.angle]
  simp only [bind, Except.bind, takeWhile_range]
  rw [show (if phase m = true then n else n - 1) = inner m n from rfl]
  split_ifs with h
  · rw [h]; rfl
  · rfl

/-! ## Distances -/

/-- The corners of the approximation, in polar coordinates (radius, clockwise angle from the start). -/
noncomputable def corner (a : Arc) (m : ArcMethod) (n : ℕ) (w R : ℝ) (i : ℕ) : ℝ × ℝ :=
  if i = 0 then (a.radius, 0)
  else if i ≤ inner m n then (R, curAngle m w (i - 1))
  else (a.radius, a.angle)

theorem zip_getElem {α : Type*} (s : α) (es : List α) (l : α × α) (h : l ∈ (s :: es).zip es) :
    ∃ i, (s :: es)[i]? = some l.1 ∧ (s :: es)[i + 1]? = some l.2 := by
  obtain ⟨i, hi, rfl⟩ := List.mem_iff_getElem.1 h
  rw [List.getElem_zip]
  rw [List.length_zip, List.length_cons] at hi
  refine ⟨i, ?_, ?_⟩
  · exact List.getElem?_eq_getElem _
  · rw [List.getElem?_cons_succ]
    exact List.getElem?_eq_getElem _

/-- The corners, as points relative to the centre, with `u` the direction of the start. -/
theorem corner_point (p : Pl) (a : Arc) (m : ArcMethod) {n : ℕ} {w R : ℝ} (u : ℂ)
    (hn : a.normal = p.normal) (hcS : p.height a.pStart = 0) (hcC : p.height a.pCenter = 0)
    (hhs : p.coord a.hStart = 0) (hhe : p.coord a.hEnd = 0)
    (hr : 0 < a.radius) (hu : p.coord a.pStart - p.coord a.pCenter = a.radius * u) (hu1 : ‖u‖ = 1)
    (hsweep : p.coord a.pEnd - p.coord a.pCenter = cw a.angle * (p.coord a.pStart - p.coord a.pCenter))
    (i : ℕ) (x : V3)
    (hx : ((a.pCenter + (a.pStart - a.pCenter) + a.hStart) :: ((List.range (inner m n)).map
      (a.vertex m w ((a.pStart - a.pCenter).normalized.mul R)) ++ [a.pEnd + a.hEnd]))[i]? = some x) :
    p.coord x - p.coord a.pCenter = (corner a m n w R i).1 * cw (corner a m n w R i).2 * u ∧ i ≤ inner m n + 1 := by
  have hflat : p.height (a.pStart - a.pCenter) = 0 := by simp [hcS, hcC]
  have hnorm : p.coord (a.pStart - a.pCenter).normalized = u := by
    rw [Pl.coord_normalized p _ hflat, Pl.coord_sub, hu, norm_mul, hu1, mul_one, Complex.norm_real,
      Real.norm_of_nonneg hr.le, mul_comm, mul_div_assoc, div_self (by exact_mod_cast hr.ne'), mul_one]
  unfold corner
  cases i with
  | zero =>
    simp only [List.getElem?_cons_zero, Option.some.injEq] at hx
    subst hx
    refine ⟨?_, by omega⟩
    simp only [Pl.coord_add, Pl.coord_sub, hhs, if_true, cw_zero, mul_one, ← hu]
    ring
  | succ i =>
    rw [List.getElem?_cons_succ, List.getElem?_append] at hx
    simp only [List.length_map, List.length_range] at hx
    rw [if_neg (Nat.succ_ne_zero i)]
    by_cases hi : i < inner m n
    · rw [if_pos hi, List.getElem?_map, List.getElem?_range hi] at hx
      simp only [Option.map_some, Option.some.injEq] at hx
      subst hx
      refine ⟨?_, by omega⟩
      rw [if_pos (by omega), Nat.add_sub_cancel]
      unfold Arc.vertex
      have hrot := (Pl.rotate p ((a.pStart - a.pCenter).normalized.mul R) (curAngle m w i)).1
      simp only [hn, Pl.coord_add, Pl.coord_mul, Pl.coord_sub, hhs, hhe, hrot, hnorm]
      unfold cw
      ring
    · rw [if_neg hi] at hx
      have h0 : i - inner m n = 0 := by
        by_contra h0
        rw [List.getElem?_eq_none (by simp; omega)] at hx
        cases hx
      rw [h0] at hx
      simp only [List.getElem?_cons_zero, Option.some.injEq] at hx
      subst hx
      refine ⟨?_, by omega⟩
      rw [if_neg (by omega)]
      simp only [Pl.coord_add, hhe, add_zero]
      rw [hsweep, hu]
      ring

/-- Two consecutive corners have a common direction along which neither is closer than `lo`. -/
theorem corner_pair (a : Arc) (m : ArcMethod) {n : ℕ} {w R lo : ℝ} (hw : Wedges a m n w) (hr : 0 < a.radius)
    (hR : a.radius ≤ R) (hin : phase m = false → R = a.radius) (hlo : lo ≤ R * Real.cos (w / 2))
    (hlor : lo ≤ a.radius) (i : ℕ) (hi : i ≤ inner m n) :
    ∃ β, lo ≤ (corner a m n w R i).1 * Real.cos ((corner a m n w R i).2 - β) ∧
      lo ≤ (corner a m n w R (i + 1)).1 * Real.cos ((corner a m n w R (i + 1)).2 - β) := by
  have hn := hw.pos
  have htot := hw.total
  unfold corner
  rw [if_neg (Nat.succ_ne_zero i), Nat.add_sub_cancel]
  unfold inner curAngle at *
  cases hph : phase m with
  | true =>
    simp only [hph, if_true] at hi ⊢
    by_cases h0 : i = 0
    · subst h0
      rw [if_pos rfl, if_pos (by omega)]
      refine ⟨0, by simpa using hlor, ?_⟩
      simp only
      convert hlo using 3
      push_cast; ring
    · rw [if_neg h0, if_pos hi]
      by_cases hi1 : i + 1 ≤ n
      · rw [if_pos hi1]
        refine ⟨w * i, ?_, ?_⟩
        · simp only
          rw [Nat.sub_add_cancel (by omega)]
          convert hlo using 2
          rw [← Real.cos_neg]
          congr 1; ring
        · simp only
          convert hlo using 3
          push_cast; ring
      · rw [if_neg hi1]
        have : i = n := by omega
        subst this
        refine ⟨a.angle, ?_, by simpa using hlor⟩
        simp only
        rw [Nat.sub_add_cancel (by omega), ← htot]
        convert hlo using 2
        rw [← Real.cos_neg]
        congr 1; ring
  | false =>
    have hRr := hin hph
    simp only [hph] at hi ⊢
    simp only [Bool.false_eq_true, if_false] at hi ⊢
    refine ⟨w * i + w / 2, ?_, ?_⟩
    · by_cases h0 : i = 0
      · rw [if_pos h0, h0]
        simp only
        rw [← hRr]
        convert hlo using 2
        rw [← Real.cos_neg]
        congr 1; push_cast; ring
      · rw [if_neg h0, if_pos hi]
        simp only
        rw [Nat.sub_add_cancel (by omega)]
        convert hlo using 2
        rw [← Real.cos_neg]
        congr 1; ring
    · by_cases hi1 : i + 1 ≤ n - 1
      · rw [if_pos hi1]
        simp only
        convert hlo using 3
        push_cast; ring
      · rw [if_neg hi1]
        have : n = i + 1 := by omega
        simp only
        rw [← htot, this, ← hRr]
        convert hlo using 3
        push_cast; ring

end Pygcode
