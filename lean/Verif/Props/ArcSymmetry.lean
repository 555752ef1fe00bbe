import Verif.Props.ArcLength

/-!
# Displaced and reversed arcs (C99)

An arc that is drawn elsewhere, or backwards, is replaced by the same lines, elsewhere or backwards.
-/

namespace Pygcode
open Pl Machine Props

/-! ## Displaced arcs -/

/-- `g'` is the arc `g` displaced by `(x, y, z)`: end coordinates are displaced in absolute distance mode and left as they are
in incremental mode; all other words are the same. -/
structure DisplacedArc (incr : Bool) (x y z : ℚ) (g g' : GCode) : Prop where
  cls : g'.cls = g.cls
  words : ∀ l, (g'.param l).isSome = (g.param l).isSome
  same : ∀ l, l ∉ ['X', 'Y', 'Z'] → g'.num? l = g.num? l
  endX : g'.num? 'X' = if incr then g.num? 'X' else (g.num? 'X').map (· + x)
  endY : g'.num? 'Y' = if incr then g.num? 'Y' else (g.num? 'Y').map (· + y)
  endZ : g'.num? 'Z' = if incr then g.num? 'Z' else (g.num? 'Z').map (· + z)

theorem add_sub_add (a b t : V3) : (a + t) - (b + t) = a - b := by
  ext
  · show a.x + t.x - (b.x + t.x) = a.x - b.x; ring
  · show a.y + t.y - (b.y + t.y) = a.y - b.y; ring
  · show a.z + t.z - (b.z + t.z) = a.z - b.z; ring

theorem proj_add (p : Pl) (a t : V3) : planeProjection (a + t) p.normal = planeProjection a p.normal + planeProjection t p.normal := by
  rw [Pl.ext_iff p]; simp

theorem dot_add_normal (p : Pl) (a t : V3) : p.normal.mul ((a + t).dot p.normal) = p.normal.mul (a.dot p.normal) + p.normal.mul (t.dot p.normal) := by
  rw [Pl.ext_iff p]; simp

theorem proj_whole (p : Pl) (t : V3) : planeProjection t p.normal + p.normal.mul (t.dot p.normal) = t := by
  rw [Pl.ext_iff p]; simp

/-- The arc displaced by `τ` in the plane and by `η` along its normal. -/
def Arc.displace (a : Arc) (τ η : V3) : Arc :=
  { a with pStart := a.pStart + τ, pEnd := a.pEnd + τ, pCenter := a.pCenter + τ, hStart := a.hStart + η, hEnd := a.hEnd + η }

theorem arcEnd_displaced {incr : Bool} {x y z : ℚ} {g g' : GCode} (h : DisplacedArc incr x y z g g') (s : V3) :
    g'.arcEnd (s + ⟨x, y, z⟩) incr = g.arcEnd s incr + ⟨x, y, z⟩ := by
  unfold GCode.arcEnd
  rw [h.endX, h.endY, h.endZ]
  cases incr
  · simp only [Bool.false_eq_true, if_false]
    ext
    · cases g.num? 'X' with
      | none => rfl
      | some v => exact Rat.cast_add v x
    · cases g.num? 'Y' with
      | none => rfl
      | some v => exact Rat.cast_add v y
    · cases g.num? 'Z' with
      | none => rfl
      | some v => exact Rat.cast_add v z
  · simp only [if_true]
    ext
    · show s.x + x + _ = s.x + _ + x; ring
    · show s.y + y + _ = s.y + _ + y; ring
    · show s.z + z + _ = s.z + _ + z; ring

theorem arcCenter_displaced {incr : Bool} {x y z : ℚ} {g g' : GCode} (h : DisplacedArc incr x y z g g') (s : V3) :
    g'.arcCenter (s + ⟨x, y, z⟩) true = g.arcCenter s true + ⟨x, y, z⟩ := by
  unfold GCode.arcCenter
  rw [h.same 'I' (by decide), h.same 'J' (by decide), h.same 'K' (by decide)]
  simp only [if_true]
  ext
  · show _ + (s.x + x) = _ + s.x + x; ring
  · show _ + (s.y + y) = _ + s.y + y; ring
  · show _ + (s.z + z) = _ + s.z + z; ring

theorem assert_displaced {incr : Bool} {x y z : ℚ} {g g' : GCode} (h : DisplacedArc incr x y z g g') :
    g'.assertArcParams = g.assertArcParams := by
  unfold GCode.assertArcParams
  simp only [h.words, h.same 'R' (by decide)]

theorem add_add_sub (a b c t : V3) : (a + t) + b - c = (a + b - c) + t := by
  ext
  · show a.x + t.x + b.x - c.x = a.x + b.x - c.x + t.x; ring
  · show a.y + t.y + b.y - c.y = a.y + b.y - c.y + t.y; ring
  · show a.z + t.z + b.z - c.z = a.z + b.z - c.z + t.z; ring

theorem add_add_add (a b d t : V3) : (a + t) + b + d = (a + b + d) + t := by
  ext
  · show a.x + t.x + b.x + d.x = a.x + b.x + d.x + t.x; ring
  · show a.y + t.y + b.y + d.y = a.y + b.y + d.y + t.y; ring
  · show a.z + t.z + b.z + d.z = a.z + b.z + d.z + t.z; ring

theorem arcOf_displaced (p : Pl) {incr : Bool} {x y z : ℚ} {g g' : GCode} (h : DisplacedArc incr x y z g g') (s : V3) (q : Quat) (e : ℝ) :
    g'.arcOf (s + ⟨x, y, z⟩) p.normal q incr true e =
      (g.arcOf s p.normal q incr true e).map (fun a => a.displace (planeProjection ⟨x, y, z⟩ p.normal)
        (p.normal.mul (V3.dot ⟨x, y, z⟩ p.normal))) := by
  unfold GCode.arcOf
  rw [arcEnd_displaced h, arcCenter_displaced h, assert_displaced h, h.same 'R' (by decide), h.cls]
  simp only [proj_add, dot_add_normal, add_sub_add]
  generalize planeProjection ⟨x, y, z⟩ p.normal = τ, p.normal.mul (V3.dot ⟨x, y, z⟩ p.normal) = η
  cases g.assertArcParams with
  | error e => rfl
  | ok u =>
    simp only [bind, Except.bind]
    cases g.num? 'R' with
    | some r =>
      simp only
      by_cases h1 : (planeProjection s p.normal - planeProjection (g.arcEnd s incr) p.normal).abs < e
      · rw [if_pos h1]; rfl
      · rw [if_neg h1]
        simp only
        split_ifs <;> first | rfl |
          (simp only [Except.map, add_add_sub _ _ _ τ, add_add_add _ _ _ τ, add_sub_add _ _ τ]; rfl)
    | none =>
      simp only [add_add_sub _ _ _ τ, add_add_add _ _ _ τ, add_sub_add _ _ τ]
      split_ifs <;> first | rfl | (simp only [Except.map, add_sub_add _ _ τ]; rfl)

theorem v3_comp (a b : V3) : (a + b).x = a.x + b.x ∧ (a + b).y = a.y + b.y ∧ (a + b).z = a.z + b.z ∧
    (a - b).x = a.x - b.x ∧ (a - b).y = a.y - b.y ∧ (a - b).z = a.z - b.z := ⟨rfl, rfl, rfl, rfl, rfl, rfl⟩

theorem vertices_displaced (a : Arc) (m : ArcMethod) (τ η : V3) :
    (a.displace τ η).iterVertices m = (a.iterVertices m).map (fun ls => ls.map (fun l => (l.1 + (τ + η), l.2 + (τ + η)))) := by
  have hR : (a.displace τ η).outerRadius m = a.outerRadius m := by cases m <;> rfl
  have hn : (a.displace τ η).wedgeCount m = a.wedgeCount m := rfl
  have hw : (a.displace τ η).wedgeAngle m = a.wedgeAngle m := rfl
  have hs : (a.displace τ η).pStart - (a.displace τ η).pCenter = a.pStart - a.pCenter := add_sub_add _ _ _
  have hf : (a.displace τ η).pCenter + (a.pStart - a.pCenter) + (a.displace τ η).hStart =
      (a.pCenter + (a.pStart - a.pCenter) + a.hStart) + (τ + η) := by
    ext <;> simp only [v3_comp, Arc.displace] <;> ring
  have he : (a.displace τ η).pEnd + (a.displace τ η).hEnd = (a.pEnd + a.hEnd) + (τ + η) := by
    ext
    · show a.pEnd.x + τ.x + (a.hEnd.x + η.x) = _ + _ + (τ.x + η.x); ring
    · show a.pEnd.y + τ.y + (a.hEnd.y + η.y) = _ + _ + (τ.y + η.y); ring
    · show a.pEnd.z + τ.z + (a.hEnd.z + η.z) = _ + _ + (τ.z + η.z); ring
  have hv : ∀ w o i, (a.displace τ η).vertex m w o i = a.vertex m w o i + (τ + η) := by
    intro w o i
    unfold Arc.vertex
    have h1 : (a.displace τ η).hEnd - (a.displace τ η).hStart = a.hEnd - a.hStart := add_sub_add _ _ _
    rw [h1]
    simp only [Arc.displace]
    generalize (a.hEnd - a.hStart).mul (Arc.curAngle m w i / a.angle) = k,
      (Quat.rotateAxis (Arc.curAngle m w i) (-a.normal)).apply o = v
    ext <;> simp only [v3_comp] <;> ring
  have hl : ∀ (f : V3) (es : List V3), Arc.lines (f + (τ + η)) (es.map (· + (τ + η))) =
      (Arc.lines f es).map (fun l => (l.1 + (τ + η), l.2 + (τ + η))) := by
    intro f es
    induction es generalizing f with
    | nil => rfl
    | cons x es ih => simp [Arc.lines, ih]
  unfold Arc.iterVertices
  simp only [hs, hR, hn, hw, hf, he, bind, Except.bind]
  cases a.outerRadius m with
  | error x => rfl
  | ok R =>
    simp only
    cases a.wedgeCount m with
    | error x => rfl
    | ok n =>
      simp only
      split_ifs with h
      · exact congrArg Except.ok (hl _ [_])
      · cases a.wedgeAngle m with
        | error x => rfl
        | ok w =>
          simp only [Except.map]
          rw [← hl, List.map_append, List.map_map, List.map_singleton]
          congr 3
          exact List.map_congr_left (fun i _ => hv _ _ i)

theorem deltas_displaced (d : ℤ) (t : V3) (vs : List V3) : ∀ s, roundedDeltas d (s + t) (vs.map (· + t)) = roundedDeltas d s vs := by
  induction vs with
  | nil => intro s; rfl
  | cons v vs ih =>
    intro s
    simp only [List.map_cons, roundedDeltas, add_sub_add]
    congr 1
    rw [← ih]
    congr 1
    ext <;> simp only [v3_comp] <;> ring

/-- **C99** (displaced): an arc with its centre relative to the start (or with R) that begins elsewhere is replaced by the
same lines there: the end points are displaced as the arc is in absolute distance mode, the increments are the same in incremental
mode, and what is refused in one place is refused in the other, with the same exception. -/
theorem C99_displaced (incr : Bool) (x y z : ℚ) (g g' : GCode) (h : DisplacedArc incr x y z g g') (start start' : Position)
    (hX : start'.val .X = start.val .X + x) (hY : start'.val .Y = start.val .Y + y) (hZ : start'.val .Z = start.val .Z + z)
    (plane : Option Cls) (method : Option ArcMethod) (e : ℝ) (d : ℤ) :
    linearizeArc g' start' plane method incr true e d =
      (if incr then (linearizeArc g start plane method incr true e d).1
        else (linearizeArc g start plane method incr true e d).1.map (fun v => ⟨v.x + x, v.y + y, v.z + z⟩),
       (linearizeArc g start plane method incr true e d).2) := by
  have hs : start'.vector = start.vector + ⟨x, y, z⟩ := by
    unfold Position.vector
    rw [hX, hY, hZ]
    ext <;> simp only [v3_comp] <;> push_cast <;> rfl
  unfold linearizeArc
  cases method with
  | none => simp
  | some m =>
    simp only [h.cls]
    by_cases hass : ¬ (g.cls.isSub .arcMove ∧ (plane.getD .selectXYPlane).isSub .planeSelect ∧ 0 < e)
    · simp only [if_pos hass]; simp
    · simp only [if_neg hass]
      cases hn : planeNormal (plane.getD .selectXYPlane) with
      | none => simp
      | some n =>
        obtain ⟨p, hp, rfl⟩ := plane_cases hn
        cases hq : planeQuat (plane.getD .selectXYPlane) with
        | none => simp
        | some q =>
          simp only [hs, arcOf_displaced p h]
          cases ha : g.arcOf start.vector p.normal q incr true e with
          | error x => simp [Except.map]
          | ok a =>
            simp only [Except.map, vertices_displaced]
            cases hv : a.iterVertices m with
            | error x => simp
            | ok ls =>
              have hmap : List.map Prod.snd (List.map (fun l : V3 × V3 => (l.1 + (⟨x, y, z⟩ : V3), l.2 + (⟨x, y, z⟩ : V3))) ls) =
                  (ls.map Prod.snd).map (· + (⟨x, y, z⟩ : V3)) := by simp
              simp only [proj_whole, hmap]
              cases incr
              · rfl
              · simp only [if_true, deltas_displaced]

/-! ## Reversed arcs -/

theorem toRight_swap (S E : ℂ) (r : ℝ) : toRight E S r = -toRight S E r := by
  have h : halfSpan E S = -halfSpan S E := by unfold halfSpan; ring
  unfold toRight
  rw [h, norm_neg]
  ring

theorem left_swap (S E : ℂ) (r : ℝ) : leftCenter E S r = rightCenter S E r := by
  unfold leftCenter rightCenter
  rw [toRight_swap]
  unfold halfSpan
  ring

theorem right_swap (S E : ℂ) (r : ℝ) : rightCenter E S r = leftCenter S E r := by
  unfold leftCenter rightCenter
  rw [toRight_swap]
  unfold halfSpan
  ring

theorem cornerFraction_back (m : ArcMethod) {n : ℕ} (hn : 0 < n) {i : ℕ} (hi : i ≤ inner m n + 1) :
    cornerFraction m n (inner m n + 1 - i) = 1 - cornerFraction m n i := by
  have hn' : (n : ℝ) ≠ 0 := by exact_mod_cast hn.ne'
  unfold cornerFraction
  rcases Nat.eq_zero_or_pos i with h0 | h0
  · subst h0; simp
  · rcases hi.eq_or_lt with h1 | h1
    · subst h1; simp
    · rw [if_neg (by omega), if_pos (by omega), if_neg (by omega), if_pos (by omega)]
      cases m with
      | inside =>
        simp only [inner, Arc.phase, fraction] at h1 ⊢
        simp only [Bool.false_eq_true, if_false] at h1 ⊢
        rw [show n - 1 + 1 - i - 1 = n - (i + 1) by omega, Nat.cast_sub (by omega), Nat.cast_sub (by omega : 1 ≤ i)]
        push_cast
        field_simp
        ring
      | outside =>
        simp only [inner, Arc.phase, fraction] at h1 ⊢
        simp only [if_true] at h1 ⊢
        rw [show n + 1 - i - 1 = n - i by omega, Nat.cast_sub (by omega), Nat.cast_sub (by omega : 1 ≤ i)]
        push_cast
        field_simp
        ring
      | mid =>
        simp only [inner, Arc.phase, fraction] at h1 ⊢
        simp only [if_true] at h1 ⊢
        rw [show n + 1 - i - 1 = n - i by omega, Nat.cast_sub (by omega), Nat.cast_sub (by omega : 1 ≤ i)]
        push_cast
        field_simp
        ring

theorem opposite_angle {A A' : ℝ} {z : ℂ} (hz : z ≠ 0) (h : cw A' * (cw A * z) = z)
    (hA : 0 < A ∧ A < 2 * Real.pi ∧ -(2 * Real.pi) < A' ∧ A' < 0 ∨ 0 < A' ∧ A' < 2 * Real.pi ∧ -(2 * Real.pi) < A ∧ A < 0) :
    A' = -A := by
  have h1 : cw (A' + A) = 1 := by
    rw [cw_add]
    exact mul_right_cancel₀ hz (by rw [mul_assoc, h, one_mul])
  have h2 : Real.cos (A' + A) = 1 := by
    rw [cw_eq] at h1
    exact congrArg Complex.re h1
  have h3 := (Real.cos_eq_one_iff_of_lt_of_lt (by rcases hA with h | h <;> linarith) (by rcases hA with h | h <;> linarith)).1 h2
  linarith

/-- The lines of an arc and of the arc that runs back. -/
theorem reversed_lines (p : Pl) (g g' : GCode) (s : V3) (q : Quat) (arcIncr : Bool) (e : ℝ) (a a' : Arc) (he : 0 < e)
    (h : g.arcOf s p.normal q false arcIncr e = .ok a) (h' : g'.arcOf (g.arcEnd s false) p.normal q false arcIncr e = .ok a')
    (hne : p.coord s ≠ p.coord (g.arcEnd s false)) (hback : g'.arcEnd (g.arcEnd s false) false = s)
    (hsw : Sweeps p a) (hsw' : Sweeps p a')
    (hdir : g'.cls.isSub .arcMoveCW = !g.cls.isSub .arcMoveCW)
    (hrad : a'.radius = a.radius) (hcen : p.coord a'.pCenter = p.coord a.pCenter) (m : ArcMethod) (ls ls' : List (V3 × V3))
    (hl : a.iterVertices m = .ok ls) (hl' : a'.iterVertices m = .ok ls') :
    s :: ls.map Prod.snd = (g.arcEnd s false :: ls'.map Prod.snd).reverse := by
  have F := arcOf_ok p g s q false arcIncr e a h
  have F' := arcOf_ok p g' _ q false arcIncr e a' h'
  obtain ⟨hr, -, hd1, hd2⟩ := C56_center p g s q false arcIncr e a h hne
  have hE := F.cEnd
  set t := g.arcEnd s false with ht
  have hne' : p.coord t ≠ p.coord (g'.arcEnd t false) := by rw [hback]; exact hne.symm
  have hang := angle_ne p a hsw (by rw [F.cStart, F.cEnd]; exact hne)
  have hang' := angle_ne p a' hsw' (by rw [F'.cStart, F'.cEnd]; exact hne')
  have hr' : 0 < a'.radius := by rw [hrad]; exact hr
  have he1 : 0 < a.maxError := by rw [F.maxError]; exact he
  have he2 : 0 < a'.maxError := by rw [F'.maxError]; exact he
  have hz : p.coord s - p.coord a.pCenter ≠ 0 := by rw [← norm_pos_iff, hd1]; exact hr
  -- the angles
  have hA : a'.angle = -a.angle := by
    refine opposite_angle hz ?_ ?_
    · have h1 := hsw
      have h2 := hsw'
      unfold Sweeps at h1 h2
      rw [F.cStart, F.cEnd, ← ht] at h1
      rw [F'.cStart, F'.cEnd, hcen, hback] at h2
      rw [← h1, ← h2]
    · have r1 := angle_range p g s q false arcIncr e a F
      have r2 := angle_range p g' t q false arcIncr e a' F'
      rw [hdir] at r2
      cases hc : g.cls.isSub .arcMoveCW with
      | true =>
        obtain ⟨b1, b2⟩ := r1.1 hc
        obtain ⟨b3, b4⟩ := r2.2 (by rw [hc]; rfl)
        exact .inl ⟨lt_of_le_of_ne b1 hang.symm, b2, b3, lt_of_le_of_ne b4 hang'⟩
      | false =>
        obtain ⟨b1, b2⟩ := r1.2 hc
        obtain ⟨b3, b4⟩ := r2.1 (by rw [hc]; rfl)
        exact .inr ⟨lt_of_le_of_ne b3 hang'.symm, b4, b1, lt_of_le_of_ne b2 hang⟩
  obtain ⟨n, w, W⟩ := wedges a m he1 hr hang
  obtain ⟨n', w', W'⟩ := wedges a' m he2 hr' hang'
  obtain ⟨R, hR, -, -, -, hin⟩ := outer_ok a m he1 hr W
  obtain ⟨R', hR', -, -, -, hin'⟩ := outer_ok a' m he2 hr' W'
  have hmax := maxWedge_ok a m he1 hr
  have hmax' := maxWedge_ok a' m he2 hr'
  have hee : a'.maxError = a.maxError := by rw [F.maxError, F'.maxError]
  rw [hrad, hee] at hmax'
  -- the wedges
  have hfit : ∀ {b : Arc} {k : ℕ} {v : ℝ}, Wedges b m k v → ∀ X, b.maxWedge m = .ok X → |b.angle| ≤ X * k := by
    intro b k v V X hX
    rw [← V.total, abs_mul, Nat.abs_cast]
    exact mul_le_mul_of_nonneg_right (V.small _ hX).1 (Nat.cast_nonneg k)
  have hn : n' = n := by
    apply le_antisymm
    · exact W'.least _ hmax' _ (by rw [hA, _root_.abs_neg]; exact hfit W _ hmax)
    · exact W.least _ hmax _ (by rw [← _root_.abs_neg, ← hA]; exact hfit W' _ hmax')
  subst hn
  have hn0 : (n' : ℝ) ≠ 0 := by exact_mod_cast W.pos.ne'
  have hw : w' = -w := by
    apply mul_right_cancel₀ hn0
    rw [W'.total, hA, ← W.total, neg_mul]
  have hRR : R' = R := by
    have o1 := outer_eq a m he1 hr W hR
    have o2 := outer_eq a' m he2 hr' W' hR'
    cases m with
    | inside => simp only at o1 o2; rw [o1, o2, hrad]
    | outside =>
      simp only at o1 o2
      rw [hw, neg_div, Real.cos_neg, hrad, ← o1] at o2
      have : Real.cos (w / 2) ≠ 0 := by intro h0; rw [h0, mul_zero] at o1; exact hr.ne o1
      exact mul_right_cancel₀ this o2
    | mid =>
      simp only at o1 o2
      rw [hw, neg_div, Real.cos_neg, hrad, ← o1] at o2
      have : Real.cos (w / 4) ^ 2 ≠ 0 := by intro h0; rw [h0, mul_zero] at o1; exact hr.ne o1
      exact mul_right_cancel₀ this o2
  subst hRR
  -- the corners
  have hrC : (a.radius : ℂ) ≠ 0 := by exact_mod_cast hr.ne'
  set u : ℂ := (p.coord s - p.coord a.pCenter) / a.radius with hu
  have hu' : p.coord a.pStart - p.coord a.pCenter = a.radius * u := by rw [hu, F.cStart]; field_simp
  have hu1 : ‖u‖ = 1 := by
    rw [hu, norm_div, hd1, Complex.norm_real, Real.norm_of_nonneg hr.le, div_self hr.ne']
  have hu2 : p.coord a'.pStart - p.coord a'.pCenter = a'.radius * (cw a.angle * u) := by
    have h1 := hsw
    unfold Sweeps at h1
    rw [F'.cStart, hcen, ht, ← F.cEnd, h1, hu', hrad]
    ring
  have hu3 : ‖cw a.angle * u‖ = 1 := by rw [norm_mul, norm_cw, hu1, one_mul]
  have hcp := fun i x hx => corner_point p a m (n := n') (w := w) (R := R') u F.normal F.hpStart F.hpCenter
    (by rw [F.hStart]; simp) (by rw [F.hEnd]; simp) hr hu' hu1 hsw i x hx
  have hch := fun i x hx => corner_height p F m (R := R') W hang i x hx
  have hcp' := fun i x hx => corner_point p a' m (n := n') (w := w') (R := R') (cw a.angle * u) F'.normal F'.hpStart F'.hpCenter
    (by rw [F'.hStart]; simp) (by rw [F'.hEnd]; simp) hr' hu2 hu3 hsw' i x hx
  have hch' := fun i x hx => corner_height p F' m (R := R') W' hang' i x hx
  rw [iterVertices_ok a m W hR, Except.ok.injEq] at hl
  rw [iterVertices_ok a' m W' hR', Except.ok.injEq] at hl'
  have hls : s :: ls.map Prod.snd = (a.pCenter + (a.pStart - a.pCenter) + a.hStart) :: ((List.range (inner m n')).map
      (a.vertex m w ((a.pStart - a.pCenter).normalized.mul R')) ++ [a.pEnd + a.hEnd]) := by
    rw [← hl, lines_snd, whole_start p F]
  have hls' : t :: ls'.map Prod.snd = (a'.pCenter + (a'.pStart - a'.pCenter) + a'.hStart) :: ((List.range (inner m n')).map
      (a'.vertex m w' ((a'.pStart - a'.pCenter).normalized.mul R')) ++ [a'.pEnd + a'.hEnd]) := by
    rw [← hl', lines_snd, whole_start p F']
  rw [hls, hls']
  set es := (a.pCenter + (a.pStart - a.pCenter) + a.hStart) :: ((List.range (inner m n')).map
      (a.vertex m w ((a.pStart - a.pCenter).normalized.mul R')) ++ [a.pEnd + a.hEnd]) with hes
  set es' := (a'.pCenter + (a'.pStart - a'.pCenter) + a'.hStart) :: ((List.range (inner m n')).map
      (a'.vertex m w' ((a'.pStart - a'.pCenter).normalized.mul R')) ++ [a'.pEnd + a'.hEnd]) with hes'
  have hlen : es.length = inner m n' + 2 := by rw [hes]; simp
  have hlen' : es'.length = inner m n' + 2 := by rw [hes']; simp
  apply List.ext_getElem?
  intro i
  by_cases hi : i < inner m n' + 2
  · rw [List.getElem?_reverse (by omega), hlen', show inner m n' + 2 - 1 - i = inner m n' + 1 - i by omega]
    have g1 : es[i]? = some es[i] := List.getElem?_eq_getElem (by omega)
    have g2 : es'[inner m n' + 1 - i]? = some es'[inner m n' + 1 - i] := List.getElem?_eq_getElem (by omega)
    rw [g1, g2]
    congr 1
    have c1 := (hcp i _ g1).1
    have c2 := (hcp' _ _ g2).1
    have d1 := hch i _ g1
    have d2 := hch' _ _ g2
    have hfb := cornerFraction_back m W.pos (show i ≤ inner m n' + 1 by omega)
    rw [Pl.ext_iff p]
    constructor
    · rw [← sub_left_inj (a := p.coord a.pCenter), c1]
      rw [hcen] at c2
      rw [c2, corner_fraction a m R' W, corner_fraction a' m R' W', hfb, hA]
      have hrho : (corner a' m n' w' R' (inner m n' + 1 - i)).1 = (corner a m n' w R' i).1 := by
        unfold corner
        rcases Nat.eq_zero_or_pos i with h0 | h0
        · subst h0; simp [hrad]
        · rcases (show i ≤ inner m n' + 1 by omega).eq_or_lt with h1 | h1
          · subst h1; simp [hrad]
          · rw [if_neg (by omega), if_pos (by omega), if_neg (by omega), if_pos (by omega)]
      rw [hrho, show (1 - cornerFraction m n' i) * -a.angle = cornerFraction m n' i * a.angle + -a.angle by ring, cw_add]
      have : cw (-a.angle) * cw a.angle = 1 := by rw [← cw_add, neg_add_cancel, cw_zero]
      linear_combination (-((corner a m n' w R' i).1 : ℂ) * cw (cornerFraction m n' i * a.angle) * u) * this
    · rw [d1, d2, hfb, hback, ← ht]
      ring
  · rw [List.getElem?_eq_none (by omega), List.getElem?_eq_none (by rw [List.length_reverse]; omega)]

/-- `g'` runs back along the arc `g` that begins at `s`: the other direction, from its end to its start, with the same R or
around the same centre (which is not on the line through both ends outside them). -/
structure RunsBack (g g' : GCode) (s : V3) (arcIncr : Bool) : Prop where
  dir : g'.cls.isSub .arcMoveCW = !g.cls.isSub .arcMoveCW
  back : g'.arcEnd (g.arcEnd s false) false = s
  radius : g'.num? 'R' = g.num? 'R'
  center : g.num? 'R' = none →
    xy.coord (g'.arcCenter (g.arcEnd s false) arcIncr) = xy.coord (g.arcCenter s arcIncr) ∧
    OneCentre (xy.coord s) (xy.coord (g.arcEnd s false)) (xy.coord (g.arcCenter s arcIncr))

/-- **C99** (reversed): an arc in the XY plane and the arc that runs back along it are replaced by the same lines, run
through in opposite order. -/
theorem C99_reversed (g g' : GCode) (start start' : Position) (plane : Option Cls)
    (hpl : plane = none ∨ plane = some .selectXYPlane) (m : ArcMethod) (arcIncr : Bool) (e : ℝ) (d d' : ℤ) (vs vs' : List V3)
    (hs' : start'.vector = g.arcEnd start.vector false) (hne : xy.coord start.vector ≠ xy.coord start'.vector)
    (hback : RunsBack g g' start.vector arcIncr)
    (h : linearizeArc g start plane (some m) false arcIncr e d = (vs, .done))
    (h' : linearizeArc g' start' plane (some m) false arcIncr e d' = (vs', .done)) :
    start.vector :: vs = (start'.vector :: vs').reverse := by
  obtain ⟨p, m1, s, q, a, ls, D, hv⟩ := linearize_done h
  obtain ⟨p', m2, s', q', a', ls', D', hv'⟩ := linearize_done h'
  obtain rfl : m = m1 := Option.some.inj D.method
  obtain rfl : m = m2 := Option.some.inj D'.method
  have hxy : ∀ {r : Pl}, plane.getD .selectXYPlane = r.cls → r = xy := by
    intro r hr
    rcases hpl with rfl | rfl <;> cases r <;> first | rfl | cases hr
  obtain rfl := hxy D.plane
  obtain rfl := hxy D'.plane
  have hq : q = Quat.one := by have := D.quat; simp [planeQuat, Pl.cls] at this; exact this.symm
  have hq' : q' = Quat.one := by have := D'.quat; simp [planeQuat, Pl.cls] at this; exact this.symm
  subst hq hq'
  obtain rfl := D.start
  obtain rfl := D'.start
  have hok := D.ok
  have hok' := D'.ok
  have F := arcOf_ok xy g _ _ false arcIncr e a hok
  have F' := arcOf_ok xy g' _ _ false arcIncr e a' hok'
  rw [hs'] at hok' F' hne
  obtain ⟨hdir, hb, hRad, hcen⟩ := hback
  have key : a'.radius = a.radius ∧ xy.coord a'.pCenter = xy.coord a.pCenter := by
    cases hR : g.num? 'R' with
    | some r =>
      have hR' := hRad.trans hR
      have hr : a'.radius = a.radius := by rw [(F.radiusR r hR).1, (F'.radiusR r hR').1]
      refine ⟨hr, ?_⟩
      rw [F.centerR r hR, F'.centerR r hR', hb, hr, hdir,
        left_swap (xy.coord start.vector) (xy.coord (g.arcEnd start.vector false)),
        right_swap (xy.coord start.vector) (xy.coord (g.arcEnd start.vector false))]
      cases g.cls.isSub .arcMoveCW <;> by_cases h0 : r < 0 <;> simp [h0]
    | none =>
      have hR' := hRad.trans hR
      obtain ⟨hc, hd⟩ := hcen hR
      refine ⟨by rw [F.radiusC hR, F'.radiusC hR', hb, hc, add_comm], ?_⟩
      have k1 := C121_mean xy g _ _ false arcIncr e a hok hne hR
      have k2 := C121_mean xy g' _ _ false arcIncr e a' hok' (by rw [hb]; exact hne.symm) hR'
      rw [hb, hc] at k2
      exact mean_unique hne hd k2.swap k1
  rw [hv, hv', hs']
  exact reversed_lines xy g g' _ _ arcIncr e a a' D.pos hok hok' hne hb (sweeps_xy _ _ _ _ _ _ hok) (sweeps_xy _ _ _ _ _ _ hok')
    hdir key.1 key.2 m ls ls' D.verts D'.verts

/-- The nearer of the two centres is on the right of the span if the named centre is on the line through both ends. -/
theorem tie_right {g : GCode} {s : V3} {q : Quat} {arcIncr : Bool} {e : ℝ} {a : Arc} {p : Pl}
    (F : ArcFacts p g s q false arcIncr e a) (hR : g.num? 'R' = none) {t : ℝ}
    (ht : p.coord (g.arcCenter s arcIncr) = p.coord s + t * (p.coord (g.arcEnd s false) - p.coord s)) :
    p.coord a.pCenter = rightCenter (p.coord s) (p.coord (g.arcEnd s false)) a.radius := by
  rcases F.centerC hR with ⟨-, h2⟩ | ⟨h1, -⟩
  · exfalso
    refine h2.ne ?_
    rw [ht]
    generalize p.coord s = S, p.coord (g.arcEnd s false) = E, a.radius = r
    have h2 : E - S = 2 * halfSpan S E := by unfold halfSpan; ring
    rw [h2]
    unfold leftCenter rightCenter toRight
    set k := halfSpan S E
    set f := √(r ^ 2 - ‖k‖ ^ 2)
    have e1 : S + k - -Complex.I * (k / ((‖k‖ : ℝ) : ℂ)) * (f : ℝ) - (S + t * (2 * k)) =
        k * (((1 - 2 * t : ℝ) : ℂ) + (f / ‖k‖ : ℝ) * Complex.I) := by push_cast; ring
    have e2 : S + k + -Complex.I * (k / ((‖k‖ : ℝ) : ℂ)) * (f : ℝ) - (S + t * (2 * k)) =
        k * (((1 - 2 * t : ℝ) : ℂ) + (-(f / ‖k‖) : ℝ) * Complex.I) := by push_cast; ring
    rw [e1, e2, norm_mul, norm_mul]
    congr 1
    refine (sq_eq_sq₀ (norm_nonneg _) (norm_nonneg _)).1 ?_
    rw [norm_sq_mk, norm_sq_mk]
    ring
  · exact h1

theorem outside_ne {S E C : ℂ} (hne : S ≠ E) {t : ℝ} (ht : C = S + t * (E - S)) (hout : t < 0 ∨ 1 < t) {r : ℝ}
    (hr : r = (‖S - C‖ + ‖E - C‖) / 2) : leftCenter S E r ≠ rightCenter S E r := by
  obtain ⟨d1, d2⟩ := alongSpan ht
  rw [d1, d2] at hr
  have hk : ‖halfSpan S E‖ = ‖E - S‖ / 2 := by unfold halfSpan; rw [norm_div]; simp
  have hpos : 0 < ‖E - S‖ := norm_pos_iff.2 (sub_ne_zero.2 hne.symm)
  have hlt : ‖halfSpan S E‖ < r := by
    rw [hk, hr]
    have : 1 < |t| + |1 - t| := by
      rcases hout with h0 | h0
      · rw [abs_of_neg h0, abs_of_pos (by linarith)]; linarith
      · rw [abs_of_pos (by linarith), abs_of_neg (by linarith)]; linarith
    nlinarith
  have hf : 0 < √(r ^ 2 - ‖halfSpan S E‖ ^ 2) := Real.sqrt_pos.2 (by nlinarith [norm_nonneg (halfSpan S E)])
  intro hcon
  unfold leftCenter rightCenter at hcon
  have h0 : toRight S E r = 0 := by linear_combination (-1 / 2 : ℂ) * hcon
  unfold toRight at h0
  have hk0 := half_ne hne
  have hn : ((‖halfSpan S E‖ : ℝ) : ℂ) ≠ 0 := by exact_mod_cast norm_ne_zero_iff.2 hk0
  rcases mul_eq_zero.1 h0 with h3 | h3
  · rcases mul_eq_zero.1 h3 with h4 | h4
    · simp at h4
    · exact div_ne_zero hk0 hn h4
  · exact hf.ne' (by exact_mod_cast h3)

/-- **C99** (outside): the restriction on the centre cannot be dropped. An arc whose named centre is on the line through both ends
and outside them, and the arc that runs back to its start around the same centre, are drawn around different centres: one on
each side of that line. -/
theorem C99_outside (p : Pl) (g g' : GCode) (s : V3) (q : Quat) (arcIncr : Bool) (e : ℝ) (a a' : Arc)
    (h : g.arcOf s p.normal q false arcIncr e = .ok a) (h' : g'.arcOf (g.arcEnd s false) p.normal q false arcIncr e = .ok a')
    (hne : p.coord s ≠ p.coord (g.arcEnd s false)) (hb : g'.arcEnd (g.arcEnd s false) false = s)
    (hR : g.num? 'R' = none) (hR' : g'.num? 'R' = none)
    (hc : p.coord (g'.arcCenter (g.arcEnd s false) arcIncr) = p.coord (g.arcCenter s arcIncr))
    (t : ℝ) (ht : p.coord (g.arcCenter s arcIncr) = p.coord s + t * (p.coord (g.arcEnd s false) - p.coord s))
    (hout : t < 0 ∨ 1 < t) :
    p.coord a'.pCenter ≠ p.coord a.pCenter ∧
    p.coord a'.pCenter + p.coord a.pCenter = p.coord s + p.coord (g.arcEnd s false) := by
  have F := arcOf_ok p g s q false arcIncr e a h
  have F' := arcOf_ok p g' _ q false arcIncr e a' h'
  have hr : a'.radius = a.radius := by rw [F.radiusC hR, F'.radiusC hR', hb, hc, add_comm]
  have k1 := tie_right F hR ht
  have k2 := tie_right F' hR' (t := 1 - t) (by rw [hc, hb, ht]; push_cast; ring)
  rw [hb, hr] at k2
  rw [k1, k2, right_swap]
  refine ⟨outside_ne hne ht hout (F.radiusC hR), ?_⟩
  unfold leftCenter rightCenter halfSpan
  ring

/-! ## Instances -/

/-- `G2 X2 I3`. -/
def sampleOutside : GCode := ⟨.arcMoveCW, ⟨'G', .num 2⟩, [⟨'X', .num 2⟩, ⟨'I', .num 3⟩], false⟩
/-- `G3 X0 I1`. -/
def sampleOutsideBack : GCode := ⟨.arcMoveCCW, ⟨'G', .num 3⟩, [⟨'X', .num 0⟩, ⟨'I', .num 1⟩], false⟩

/-- From (0, 0) to (2, 0) around (3, 0), and back. -/
example : ∃ a a', sampleOutside.arcOf ⟨(0 : ℚ), (0 : ℚ), (0 : ℚ)⟩ xy.normal Quat.one false true (1 / 100) = .ok a ∧
    sampleOutsideBack.arcOf ⟨(2 : ℚ), (0 : ℚ), (0 : ℚ)⟩ xy.normal Quat.one false true (1 / 100) = .ok a' ∧
    xy.coord a'.pCenter ≠ xy.coord a.pCenter ∧ xy.coord a'.pCenter + xy.coord a.pCenter = 2 := by
  have hs := at3_vector 0 0 0
  have hs' := at3_vector 2 0 0
  have hE : sampleOutside.arcEnd ⟨(0 : ℚ), (0 : ℚ), (0 : ℚ)⟩ false = ⟨(2 : ℚ), (0 : ℚ), (0 : ℚ)⟩ := by
    simp [GCode.arcEnd, sampleOutside, GCode.num?, GCode.param, Word.num]
  have hE' : sampleOutsideBack.arcEnd ⟨(2 : ℚ), (0 : ℚ), (0 : ℚ)⟩ false = ⟨(0 : ℚ), (0 : ℚ), (0 : ℚ)⟩ := by
    simp [GCode.arcEnd, sampleOutsideBack, GCode.num?, GCode.param, Word.num]
  have hne : xy.coord ⟨(0 : ℚ), (0 : ℚ), (0 : ℚ)⟩ ≠ xy.coord ⟨(2 : ℚ), (0 : ℚ), (0 : ℚ)⟩ := by
    intro h; have := congrArg Complex.re h; simp [Pl.coord] at this
  obtain ⟨vs, h⟩ := (C62_done sampleOutside _ .inside false true (1 / 100) 3 _ hs (by rw [hE]; exact hne)).2
    ⟨by decide +kernel, by norm_num, by decide +kernel, fun r hr => by simp [sampleOutside, GCode.num?, GCode.param] at hr⟩
  obtain ⟨vs', h'⟩ := (C62_done sampleOutsideBack _ .inside false true (1 / 100) 3 _ hs' (by rw [hE']; exact hne.symm)).2
    ⟨by decide +kernel, by norm_num, by decide +kernel, fun r hr => by simp [sampleOutsideBack, GCode.num?, GCode.param] at hr⟩
  have hq : ∀ {p : Pl} {q : Quat}, Cls.selectXYPlane = p.cls → planeQuat p.cls = some q → p = xy ∧ q = Quat.one := by
    intro p q hp hq
    have : p = xy := by cases p <;> first | rfl | cases hp
    subst this
    simp [planeQuat, Pl.cls] at hq
    exact ⟨rfl, hq.symm⟩
  obtain ⟨p, m1, s, q, a, ls, D, -⟩ := linearize_done h
  obtain ⟨p', m2, s', q', a', ls', D', -⟩ := linearize_done h'
  obtain ⟨rfl, rfl⟩ := hq D.plane D.quat
  obtain ⟨rfl, rfl⟩ := hq D'.plane D'.quat
  have k := D.ok
  have k' := D'.ok
  rw [← D.start, hs] at k
  rw [← D'.start, hs'] at k'
  refine ⟨a, a', k, k', ?_⟩
  have c1 : sampleOutside.arcCenter ⟨(0 : ℚ), (0 : ℚ), (0 : ℚ)⟩ true = ⟨(3 : ℚ), 0, 0⟩ := by
    simp [GCode.arcCenter, sampleOutside, GCode.num?, GCode.param, Word.num, add_mk]
  have c2 : sampleOutsideBack.arcCenter ⟨(2 : ℚ), (0 : ℚ), (0 : ℚ)⟩ true = ⟨(3 : ℚ), 0, 0⟩ := by
    simp [GCode.arcCenter, sampleOutsideBack, GCode.num?, GCode.param, Word.num, add_mk]; norm_num
  rw [← hE] at k'
  obtain ⟨r1, r2⟩ := C99_outside xy _ _ _ _ true _ a a' k k' (by rw [hE]; exact hne) (by rw [hE, hE']) (by decide +kernel) (by decide +kernel)
    (by rw [hE, c1, c2]) (3 / 2) (by rw [hE, c1]; apply Complex.ext <;> simp [Pl.coord]) (.inr (by norm_num))
  refine ⟨r1, r2.trans ?_⟩
  rw [hE]
  apply Complex.ext <;> simp [Pl.coord]

/-- `G3 X5 Y1 I-1`. -/
def sampleElsewhere : GCode := ⟨.arcMoveCCW, ⟨'G', .num 3⟩, [⟨'X', .num 5⟩, ⟨'Y', .num 1⟩, ⟨'I', .num (-1)⟩], false⟩
/-- `G2 X1 Y0 J-1`. -/
def sampleBack : GCode := ⟨.arcMoveCW, ⟨'G', .num 2⟩, [⟨'X', .num 1⟩, ⟨'Y', .num 0⟩, ⟨'J', .num (-1)⟩], false⟩

/-- From (1, 0, 0) and from (6, 0, 2). -/
example (m : ArcMethod) : linearizeArc sampleElsewhere (at3 6 0 2) none (some m) false true (1 / 100) 3 =
    ((linearizeArc sampleArc (at3 1 0 0) none (some m) false true (1 / 100) 3).1.map (fun v => ⟨v.x + (5 : ℚ), v.y + (0 : ℚ), v.z + (2 : ℚ)⟩),
     (linearizeArc sampleArc (at3 1 0 0) none (some m) false true (1 / 100) 3).2) := by
  have h : DisplacedArc false 5 0 2 sampleArc sampleElsewhere := by
    refine ⟨rfl, fun l => ?_, fun l hl => ?_, ?_, ?_, ?_⟩
    · simp only [GCode.param, sampleArc, sampleElsewhere, List.find?_cons, List.find?_nil]
      cases h1 : 'X' == l <;> cases h2 : 'Y' == l <;> cases h3 : 'I' == l <;> simp [*]
    · have h1 : ('X' == l) = false := by rw [beq_eq_false_iff_ne]; rintro rfl; exact hl (by decide)
      have h2 : ('Y' == l) = false := by rw [beq_eq_false_iff_ne]; rintro rfl; exact hl (by decide)
      simp only [GCode.num?, GCode.param, sampleArc, sampleElsewhere, List.find?_cons, List.find?_nil, h1, h2]
    all_goals decide +kernel
  have := C99_displaced false 5 0 2 _ _ h (at3 1 0 0) (at3 6 0 2) (by decide +kernel) (by decide +kernel) (by decide +kernel) none (some m) (1 / 100) 3
  simpa using this

/-- A quarter of a circle and back. -/
example (m : ArcMethod) : ∃ vs vs', linearizeArc sampleArc (at3 1 0 0) none (some m) false true (1 / 100) 3 = (vs, .done) ∧
    linearizeArc sampleBack (at3 0 1 0) none (some m) false true (1 / 100) 3 = (vs', .done) ∧
    (at3 1 0 0).vector :: vs = ((at3 0 1 0).vector :: vs').reverse := by
  have hs := at3_vector 1 0 0
  have hs' := at3_vector 0 1 0
  have hE : sampleArc.arcEnd ⟨(1 : ℚ), (0 : ℚ), (0 : ℚ)⟩ false = ⟨(0 : ℚ), (1 : ℚ), (0 : ℚ)⟩ := by
    simp [GCode.arcEnd, sampleArc, GCode.num?, GCode.param, Word.num]
  have hE' : sampleBack.arcEnd ⟨(0 : ℚ), (1 : ℚ), (0 : ℚ)⟩ false = ⟨(1 : ℚ), (0 : ℚ), (0 : ℚ)⟩ := by
    simp [GCode.arcEnd, sampleBack, GCode.num?, GCode.param, Word.num]
  have hne : xy.coord ⟨(1 : ℚ), (0 : ℚ), (0 : ℚ)⟩ ≠ xy.coord ⟨(0 : ℚ), (1 : ℚ), (0 : ℚ)⟩ := by
    intro h; have := congrArg Complex.re h; simp [Pl.coord] at this
  obtain ⟨vs, h⟩ := (C62_done sampleArc _ m false true (1 / 100) 3 _ hs (by rw [hE]; exact hne)).2
    ⟨by decide +kernel, by norm_num, by decide +kernel, fun r hr => by simp [sampleArc, GCode.num?, GCode.param] at hr⟩
  obtain ⟨vs', h'⟩ := (C62_done sampleBack _ m false true (1 / 100) 3 _ hs' (by rw [hE']; exact hne.symm)).2
    ⟨by decide +kernel, by norm_num, by decide +kernel, fun r hr => by simp [sampleBack, GCode.num?, GCode.param] at hr⟩
  refine ⟨vs, vs', h, h', C99_reversed sampleArc sampleBack _ _ (some .selectXYPlane) (.inr rfl) m true (1 / 100) 3 3 vs vs'
    (by rw [hs, hs', hE]) (by rw [hs, hs']; exact hne) ⟨by decide +kernel, by rw [hs, hE, hE'], by decide +kernel, fun _ => ?_⟩ h h'⟩
  rw [hs, hE]
  have c1 : sampleArc.arcCenter ⟨(1 : ℚ), (0 : ℚ), (0 : ℚ)⟩ true = ⟨0, 0, 0⟩ := by
    simp [GCode.arcCenter, sampleArc, GCode.num?, GCode.param, Word.num, add_mk]
  have c2 : sampleBack.arcCenter ⟨(0 : ℚ), (1 : ℚ), (0 : ℚ)⟩ true = ⟨0, 0, 0⟩ := by
    simp [GCode.arcCenter, sampleBack, GCode.num?, GCode.param, Word.num, add_mk]
  rw [c1, c2]
  refine ⟨rfl, OneCentre.of_fits hne ?_⟩
  have e1 : xy.coord (⟨(1 : ℚ), (0 : ℚ), (0 : ℚ)⟩ : V3) - xy.coord ⟨0, 0, 0⟩ = 1 := by apply Complex.ext <;> simp [Pl.coord]
  have e2 : xy.coord (⟨(0 : ℚ), (1 : ℚ), (0 : ℚ)⟩ : V3) - xy.coord ⟨0, 0, 0⟩ = Complex.I := by apply Complex.ext <;> simp [Pl.coord]
  rw [e1, e2]; simp

end Pygcode
