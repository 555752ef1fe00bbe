import Verif.Props.ArcMean
import Verif.Props.MachineMove

/-!
# Linearized arcs: the yielded moves (C54, C55, C57, C59–C62)
-/

namespace Pygcode
open Pl Machine Props

/-! ## Taking `linearize_arc` apart -/

theorem plane_cases {c : Cls} {n : V3} (h : planeNormal c = some n) : ∃ p : Pl, c = p.cls ∧ n = p.normal := by
  unfold planeNormal at h
  split at h
  · exact ⟨xy, rfl, (Option.some.inj h).symm⟩
  · exact ⟨zx, rfl, (Option.some.inj h).symm⟩
  · exact ⟨yz, rfl, (Option.some.inj h).symm⟩
  · cases h

theorem planeNormal_cls (p : Pl) : planeNormal p.cls = some p.normal := by cases p <;> rfl
theorem planeQuat_cls (p : Pl) : ∃ q, planeQuat p.cls = some q := by cases p <;> exact ⟨_, rfl⟩
theorem planeSelect_cls (p : Pl) : p.cls.isSub .planeSelect = true := by cases p <;> decide +kernel

/-- The exact vertices behind a finished linearization. -/
structure Done (g : GCode) (start : Position) (plane : Option Cls) (method : Option ArcMethod)
    (incr arcIncr : Bool) (e : ℝ) (p : Pl) (m : ArcMethod) (s : V3) (q : Quat) (a : Arc) (ls : List (V3 × V3)) : Prop where
  method : method = some m
  plane : plane.getD .selectXYPlane = p.cls
  start : start.vector = s
  arc : g.cls.isSub .arcMove = true
  pos : 0 < e
  quat : planeQuat p.cls = some q
  ok : g.arcOf s p.normal q incr arcIncr e = .ok a
  verts : a.iterVertices m = .ok ls

theorem linearize_done {g : GCode} {start : Position} {plane : Option Cls} {method : Option ArcMethod}
    {incr arcIncr : Bool} {e : ℝ} {d : ℤ} {vs : List V3}
    (h : linearizeArc g start plane method incr arcIncr e d = (vs, .done)) :
    ∃ p m s q a ls, Done g start plane method incr arcIncr e p m s q a ls ∧
      vs = if incr then roundedDeltas d s (ls.map Prod.snd) else ls.map Prod.snd := by
  unfold linearizeArc at h
  cases method with
  | none => simp at h
  | some m =>
    simp only at h
    by_cases hass : (g.cls.isSub .arcMove = true ∧ (plane.getD .selectXYPlane).isSub .planeSelect = true ∧ 0 < e)
    · rw [if_neg (not_not.2 hass)] at h
      cases hn : planeNormal (plane.getD .selectXYPlane) with
      | none => rw [hn] at h; simp at h
      | some n =>
        obtain ⟨p, hp, rfl⟩ := plane_cases hn
        obtain ⟨q, hq⟩ := planeQuat_cls p
        rw [hn, hp, hq] at h
        simp only at h
        cases ha : g.arcOf start.vector p.normal q incr arcIncr e with
        | error x => rw [ha] at h; simp at h
        | ok a =>
          rw [ha] at h
          simp only at h
          cases hv : a.iterVertices m with
          | error x => rw [hv] at h; simp at h
          | ok ls =>
            rw [hv] at h
            simp only [Prod.mk.injEq, and_true] at h
            exact ⟨p, m, _, q, a, ls, ⟨rfl, hp, rfl, hass.1, hass.2.2, hq, ha, hv⟩, h.symm⟩
    · rw [if_pos hass] at h; simp at h

theorem done_linearize {g : GCode} {start : Position} {plane : Option Cls} {method : Option ArcMethod}
    {incr arcIncr : Bool} {e : ℝ} (d : ℤ) {p : Pl} {m : ArcMethod} {s : V3} {q : Quat} {a : Arc} {ls : List (V3 × V3)}
    (D : Done g start plane method incr arcIncr e p m s q a ls) :
    linearizeArc g start plane method incr arcIncr e d =
      (if incr then roundedDeltas d s (ls.map Prod.snd) else ls.map Prod.snd, .done) := by
  unfold linearizeArc
  rw [D.method]
  simp only
  rw [if_neg (not_not.2 ⟨D.arc, by rw [D.plane]; exact planeSelect_cls p, D.pos⟩), D.start, D.plane, planeNormal_cls,
    D.quat]
  simp only [D.ok, D.verts]

theorem lines_snd (s : V3) (es : List V3) : (Arc.lines s es).map Prod.snd = es := by
  induction es generalizing s with
  | nil => rfl
  | cons e es ih => simp [Arc.lines, ih]

/-- The vertices always end at the arc's end. -/
theorem verts_shape {a : Arc} {m : ArcMethod} {ls : List (V3 × V3)} (h : a.iterVertices m = .ok ls) :
    ∃ vs, ls = Arc.lines (a.pCenter + (a.pStart - a.pCenter) + a.hStart) (vs ++ [a.pEnd + a.hEnd]) := by
  unfold Arc.iterVertices at h
  cases h1 : a.outerRadius m with
  | error x => rw [h1] at h; cases h
  | ok R =>
    cases h2 : a.wedgeCount m with
    | error x => rw [h1, h2] at h; cases h
    | ok n =>
      rw [h1, h2] at h
      simp only [bind, Except.bind] at h
      split_ifs at h with h3
      · cases h; exact ⟨[], rfl⟩
      · cases h4 : a.wedgeAngle m with
        | error x => rw [h4] at h; cases h
        | ok w => rw [h4] at h; cases h; exact ⟨_, rfl⟩

theorem whole_end (p : Pl) {g : GCode} {s : V3} {q : Quat} {incr arcIncr : Bool} {e : ℝ} {a : Arc}
    (F : ArcFacts p g s q incr arcIncr e a) : a.pEnd + a.hEnd = g.arcEnd s incr := by
  rw [Pl.ext_iff p]
  simp [F.cEnd, F.hpEnd, F.hEnd]

theorem whole_start (p : Pl) {g : GCode} {s : V3} {q : Quat} {incr arcIncr : Bool} {e : ℝ} {a : Arc}
    (F : ArcFacts p g s q incr arcIncr e a) : a.pCenter + (a.pStart - a.pCenter) + a.hStart = s := by
  rw [Pl.ext_iff p]
  simp [F.cStart, F.hpStart, F.hStart]

theorem done_shape {g : GCode} {start : Position} {plane : Option Cls} {method : Option ArcMethod}
    {incr arcIncr : Bool} {e : ℝ} {p : Pl} {m : ArcMethod} {s : V3} {q : Quat} {a : Arc} {ls : List (V3 × V3)}
    (D : Done g start plane method incr arcIncr e p m s q a ls) :
    ∃ vs, ls.map Prod.snd = vs ++ [g.arcEnd s incr] ∧ ls = segments s (ls.map Prod.snd) := by
  have F := arcOf_ok p g s q incr arcIncr e a D.ok
  obtain ⟨vs, hvs⟩ := verts_shape D.verts
  rw [whole_end p F, whole_start p F] at hvs
  refine ⟨vs, ?_, ?_⟩
  · rw [hvs, lines_snd]
  · rw [hvs, lines_snd, lines_zip]; rfl

/-! ## C54 -/

/-- The last move of a linearization in absolute mode goes to the given coordinates, and to those of
the start where none are given; for every plane, method and error. -/
theorem C54_end (g : GCode) (start : Position) (plane : Option Cls) (method : Option ArcMethod)
    (arcIncr : Bool) (e : ℝ) (d : ℤ) (vs : List V3)
    (h : linearizeArc g start plane method false arcIncr e d = (vs, .done)) :
    ∃ v, vs.getLast? = some v ∧
      v.x = ((g.num? 'X').getD (start.val .X) : ℚ) ∧ v.y = ((g.num? 'Y').getD (start.val .Y) : ℚ) ∧
      v.z = ((g.num? 'Z').getD (start.val .Z) : ℚ) := by
  obtain ⟨p, m, s, q, a, ls, D, rfl⟩ := linearize_done h
  obtain ⟨vs', h1, -⟩ := done_shape D
  have hs : s = ⟨start.val .X, start.val .Y, start.val .Z⟩ := D.start.symm
  refine ⟨g.arcEnd s false, ?_, ?_, ?_, ?_⟩
  · rw [if_neg (by decide), h1]; simp
  · simp only [GCode.arcEnd, Bool.false_eq_true, if_false, hs]; cases g.num? 'X' <;> rfl
  · simp only [GCode.arcEnd, Bool.false_eq_true, if_false, hs]; cases g.num? 'Y' <;> rfl
  · simp only [GCode.arcEnd, Bool.false_eq_true, if_false, hs]; cases g.num? 'Z' <;> rfl

theorem arc_proc (c : Cls) (h : c.isSub .arcMove = true) : c.proc = .motion := by
  have := Cls.forall_of_all (p := fun c => !c.isSub .arcMove || c.proc == .motion) (by decide +kernel) c
  simpa [h] using this

/-- The last move goes where a machine in absolute mode, with axes X, Y and Z, goes when it executes the
arc itself. -/
theorem C54_machine (mc : Machine) (hm : mc.WF) (hb : ¬ mc.BadSys) (hs : Synced mc)
    (hax : .X ∈ mc.axes ∧ .Y ∈ mc.axes ∧ .Z ∈ mc.axes)
    (hab : ∀ d, mc.mode.distance = some d → d.cls.isSub .incrementalDistanceMode = false)
    (g : GCode) (hg : GOK g) (start : Position) (hpos : mc.pos = .ok start)
    (plane : Option Cls) (method : Option ArcMethod) (arcIncr : Bool) (e : ℝ) (d : ℤ) (vs : List V3)
    (h : linearizeArc g start plane method false arcIncr e d = (vs, .done)) :
    ∃ mc' q v, mc.process g = (mc', none) ∧ mc'.pos = .ok q ∧ vs.getLast? = some v ∧
      v = ⟨q.val .X, q.val .Y, q.val .Z⟩ := by
  obtain ⟨v, hv, hx, hy, hz⟩ := C54_end g start plane method arcIncr e d vs h
  obtain ⟨p, m, s, qq, a, ls, D, -⟩ := linearize_done h
  obtain ⟨mc', st, q, h1, h2, h3, h4, h5, -⟩ := C31_absolute mc hm hb hs hab g hg (.inl (arc_proc _ D.arc))
  obtain rfl : start = st := by rw [hpos] at h2; exact Except.ok.inj h2
  have key : ∀ A : Axis, A ∈ mc.axes → q.val A = (g.num? A.letter).getD (start.val A) := by
    intro A hA
    cases hn : g.num? A.letter with
    | some x => rw [h4 A hA x hn]; rfl
    | none => rw [h5 A (fun _ => hn)]; rfl
  refine ⟨mc', q, v, h1, h3, hv, ?_⟩
  apply V3.ext
  · rw [hx, key .X hax.1]; rfl
  · rw [hy, key .Y hax.2.1]; rfl
  · rw [hz, key .Z hax.2.2]; rfl

/-! ## C55 -/

/-- The pairs yielded by `iter_vertices` are the segments of one path from the arc's start; their
number is the least one for which the wedges are not larger than allowed (one more for the methods
whose chords are offset). -/
theorem C55_chain (p : Pl) (g : GCode) (s : V3) (q : Quat) (incr arcIncr : Bool) (e : ℝ) (a : Arc)
    (h : g.arcOf s p.normal q incr arcIncr e = .ok a) (hr : 0 < a.radius) (he : 0 < e) (hang : a.angle ≠ 0)
    (m : ArcMethod) :
    ∃ ls vs, ∃ n : ℕ, ∃ W, a.iterVertices m = .ok ls ∧ ls = segments s vs ∧ vs.getLast? = some (g.arcEnd s incr) ∧
      a.maxWedge m = .ok W ∧ 0 < W ∧ |a.angle| ≤ W * n ∧ (∀ k : ℕ, |a.angle| ≤ W * k → n ≤ k) ∧
      ls.length = match m with | .inside => n | .outside => n + 1 | .mid => n + 1 := by
  have F := arcOf_ok p g s q incr arcIncr e a h
  have he' : 0 < a.maxError := by rw [F.maxError]; exact he
  obtain ⟨n, w, Wd⟩ := wedges a m he' hr hang
  obtain ⟨R, hR, -⟩ := outer_ok a m he' hr Wd
  have hv := iterVertices_ok a m Wd hR
  rw [whole_start p F, whole_end p F, lines_zip] at hv
  have hmax := maxWedge_ok a m he' hr
  obtain ⟨hc0, hc1⟩ := wedgeCos_range m (lt_min he' hr) (min_le_right a.maxError a.radius)
  refine ⟨_, _, n, _, hv, rfl, by simp, hmax, ?_, ?_, Wd.least _ hmax, ?_⟩
  · have := Real.arccos_pos.2 hc1
    positivity
  · rw [← Wd.total, abs_mul, Nat.abs_cast]
    exact mul_le_mul_of_nonneg_right (Wd.small _ hmax).1 (Nat.cast_nonneg n)
  · have := Wd.pos
    cases m <;> simp [inner, Arc.phase] <;> omega

/-! ## C57 -/

/-- XY plane, absolute mode: start and end of the arc lie on a circle (of the given radius, or about
the given centre), and the yielded path strays from it by no more than the error, on the sides the
method promises. -/
theorem C57_path (g : GCode) (start : Position) (plane : Option Cls) (hpl : plane = none ∨ plane = some .selectXYPlane)
    (m : ArcMethod) (arcIncr : Bool) (e : ℝ) (d : ℤ) (vs : List V3) (s : V3) (hs : start.vector = s)
    (hne : xy.coord s ≠ xy.coord (g.arcEnd s false))
    (h : linearizeArc g start plane (some m) false arcIncr e d = (vs, .done)) :
    ∃ (c : ℂ) (r : ℝ), 0 < r ∧ ‖xy.coord s - c‖ = r ∧ ‖xy.coord (g.arcEnd s false) - c‖ = r ∧
      (∀ x, g.num? 'R' = some x → r = |(x : ℝ)|) ∧
      (g.num? 'R' = none → MeanCentre (xy.coord s) (xy.coord (g.arcEnd s false)) (xy.coord (g.arcCenter s arcIncr)) c) ∧
      ∀ l ∈ segments s vs, ∀ t, 0 ≤ t → t ≤ 1 →
        let dist := ‖xy.coord (onSegment l t) - c‖
        match m with
        | .inside => r - e ≤ dist ∧ dist ≤ r
        | .outside => r ≤ dist ∧ dist ≤ r + e
        | .mid => r - e / 2 ≤ dist ∧ dist ≤ r + e / 2 := by
  obtain ⟨p, m', s', q, a, ls, D, rfl⟩ := linearize_done h
  obtain rfl : m = m' := Option.some.inj D.method
  obtain rfl : s = s' := by exact hs.symm.trans D.start
  have hp : p = xy := by
    have := D.plane
    rcases hpl with rfl | rfl <;> cases p <;> first | rfl | (exact absurd this (by decide))
  subst hp
  obtain rfl : Quat.one = q := Option.some.inj D.quat
  obtain ⟨h1, h2, h3, h4⟩ := C56_center xy g s _ false arcIncr e a D.ok hne
  refine ⟨xy.coord a.pCenter, a.radius, h1, h3, h4, ?_, ?_, ?_⟩
  · intro x hx; exact C56_radius xy g s _ false arcIncr e a D.ok x hx
  · intro hR; exact C121_mean xy g s _ false arcIncr e a D.ok hne hR
  · obtain ⟨ls', h5, h6⟩ := C57_error xy g s _ false arcIncr e a D.ok hne D.pos (sweeps_xy g s false arcIncr e a D.ok) m
    obtain rfl : ls = ls' := by have := D.verts; rw [h5] at this; exact (Except.ok.inj this).symm
    obtain ⟨-, -, h7⟩ := done_shape D
    simp only [Bool.false_eq_true, if_false]
    rw [← h7]
    intro l hl t ht0 ht1
    have h8 := h6 l hl t ht0 ht1
    cases m <;> exact h8

/-! ## C60 -/

theorem roundTo_close (d : ℤ) (x : ℝ) : |roundTo d x - x| ≤ 1 / 2 / 10 ^ d := by
  have hp : (0 : ℝ) < 10 ^ d := by positivity
  have key : ∀ k : ℤ, |(k : ℝ) - x * 10 ^ d| ≤ 1 / 2 → |(k : ℝ) / 10 ^ d - x| ≤ 1 / 2 / 10 ^ d := by
    intro k hk
    rw [show (k : ℝ) / 10 ^ d - x = (k - x * 10 ^ d) / 10 ^ d by field_simp, abs_div, abs_of_pos hp]
    exact div_le_div_of_nonneg_right hk hp.le
  have h1 := Int.floor_le (x * 10 ^ d)
  have h2 := Int.lt_floor_add_one (x * 10 ^ d)
  unfold roundTo
  simp only
  apply key
  split_ifs <;> rw [abs_le] <;> push_cast <;> constructor <;> linarith

/-- Two points that agree up to half a unit of the last printed place, in each coordinate. -/
def Near (d : ℤ) (a b : V3) : Prop :=
  |a.x - b.x| ≤ 1 / 2 / 10 ^ d ∧ |a.y - b.y| ≤ 1 / 2 / 10 ^ d ∧ |a.z - b.z| ≤ 1 / 2 / 10 ^ d

/-- Adding up the rounded increments stays near the exact vertices, however many there are. -/
theorem C60_no_drift (d : ℤ) (s : V3) (vs : List V3) :
    List.Forall₂ (Near d) (summed s (roundedDeltas d s vs)) vs := by
  induction vs generalizing s with
  | nil => exact .nil
  | cons v vs ih =>
    refine .cons ?_ (ih _)
    have h1 := roundTo_close d (v.x - s.x)
    have h2 := roundTo_close d (v.y - s.y)
    have h3 := roundTo_close d (v.z - s.z)
    refine ⟨?_, ?_, ?_⟩
    · show |s.x + roundTo d (v.x - s.x) - v.x| ≤ _
      rwa [show s.x + roundTo d (v.x - s.x) - v.x = roundTo d (v.x - s.x) - (v.x - s.x) by ring]
    · show |s.y + roundTo d (v.y - s.y) - v.y| ≤ _
      rwa [show s.y + roundTo d (v.y - s.y) - v.y = roundTo d (v.y - s.y) - (v.y - s.y) by ring]
    · show |s.z + roundTo d (v.z - s.z) - v.z| ≤ _
      rwa [show s.z + roundTo d (v.z - s.z) - v.z = roundTo d (v.z - s.z) - (v.z - s.z) by ring]

theorem forall₂_getLast {α β : Type*} {R : α → β → Prop} {as : List α} {bs : List β} (h : List.Forall₂ R as bs)
    (b : β) (hb : bs.getLast? = some b) : ∃ a, as.getLast? = some a ∧ R a b := by
  induction h with
  | nil => cases hb
  | cons h1 h2 ih =>
    cases h2 with
    | nil => simp at hb; subst hb; exact ⟨_, rfl, h1⟩
    | cons h3 h4 =>
      rw [List.getLast?_cons_cons] at hb ⊢
      exact ih hb

/-- The increments of an incremental linearization are multiples of the last printed place, and their
sum is the commanded displacement up to half a unit per axis. -/
theorem C60_end (g : GCode) (start : Position) (plane : Option Cls) (method : Option ArcMethod)
    (arcIncr : Bool) (e : ℝ) (d : ℤ) (vs : List V3)
    (h : linearizeArc g start plane method true arcIncr e d = (vs, .done)) :
    ∃ s v, start.vector = s ∧ (summed s vs).getLast? = some v ∧
      Near d v (s + ⟨(g.num? 'X').getD 0, (g.num? 'Y').getD 0, (g.num? 'Z').getD 0⟩) := by
  obtain ⟨p, m, s, q, a, ls, D, rfl⟩ := linearize_done h
  obtain ⟨vs', h1, -⟩ := done_shape D
  rw [if_pos rfl]
  have h2 := C60_no_drift d s (ls.map Prod.snd)
  obtain ⟨v, h3, h4⟩ := forall₂_getLast h2 (g.arcEnd s true) (by rw [h1]; simp)
  refine ⟨s, v, D.start, h3, ?_⟩
  exact h4

theorem C60_multiples (d : ℤ) (s : V3) (vs : List V3) : ∀ v ∈ roundedDeltas d s vs,
    ∃ i j k : ℤ, v = ⟨i / 10 ^ d, j / 10 ^ d, k / 10 ^ d⟩ := by
  induction vs generalizing s with
  | nil => intro v hv; cases hv
  | cons x vs ih =>
    intro v hv
    rcases List.mem_cons.1 hv with rfl | hv
    · exact ⟨_, _, _, rfl⟩
    · exact ih _ v hv

/-! ## C61 -/

/-- Fraction of the arc swept at the `i`-th of the vertices between start and end. -/
noncomputable def fraction (m : ArcMethod) (n i : ℕ) : ℝ :=
  match m with
  | .inside => (i + 1) / n
  | .outside => (2 * i + 1) / (2 * n)
  | .mid => (2 * i + 1) / (2 * n)

theorem curAngle_fraction (m : ArcMethod) (a : Arc) {n : ℕ} {w : ℝ} (hw : Wedges a m n w) (i : ℕ) :
    Arc.curAngle m w i = fraction m n i * a.angle := by
  have hn : (n : ℝ) ≠ 0 := by exact_mod_cast hw.pos.ne'
  rw [← hw.total]
  cases m <;> simp only [Arc.curAngle, Arc.phase, fraction] <;> simp <;> field_simp <;> ring

theorem fraction_range (m : ArcMethod) {n i : ℕ} (hn : 0 < n) (hi : i < inner m n) :
    0 < fraction m n i ∧ fraction m n i < 1 := by
  have hnR : (0 : ℝ) < n := by exact_mod_cast hn
  cases m <;> simp only [inner, Arc.phase, fraction] at hi ⊢
  · have h1 : i + 1 < n := by simp at hi; omega
    have h2 : (i : ℝ) + 1 < n := by exact_mod_cast h1
    exact ⟨by positivity, by rw [div_lt_one hnR]; exact h2⟩
  · have h1 : i + 1 ≤ n := by simp at hi; omega
    have h2 : (i : ℝ) + 1 ≤ n := by exact_mod_cast h1
    exact ⟨by positivity, by rw [div_lt_one (by positivity)]; linarith⟩
  · have h1 : i + 1 ≤ n := by simp at hi; omega
    have h2 : (i : ℝ) + 1 ≤ n := by exact_mod_cast h1
    exact ⟨by positivity, by rw [div_lt_one (by positivity)]; linarith⟩

theorem fraction_mono (m : ArcMethod) {n i j : ℕ} (hn : 0 < n) (hij : i < j) : fraction m n i < fraction m n j := by
  have hnR : (0 : ℝ) < n := by exact_mod_cast hn
  have h1 : (i : ℝ) < j := by exact_mod_cast hij
  cases m <;> simp only [fraction]
  · exact div_lt_div_of_pos_right (by linarith) hnR
  · exact div_lt_div_of_pos_right (by linarith) (by linarith)
  · exact div_lt_div_of_pos_right (by linarith) (by linarith)

/-- The end points of the lines lie at increasing fractions of the sweep, the last one at its end; at
the fraction `f` the start direction has been turned by `f` times the angle, and the height is
the same fraction of the way from start to end height. -/
theorem C61_helix (p : Pl) (g : GCode) (s : V3) (q : Quat) (incr arcIncr : Bool) (e : ℝ) (a : Arc)
    (h : g.arcOf s p.normal q incr arcIncr e = .ok a) (hne : p.coord s ≠ p.coord (g.arcEnd s incr)) (he : 0 < e)
    (hang : a.angle ≠ 0) (m : ArcMethod) :
    ∃ vs, ∃ fs : List ℝ, a.iterVertices m = .ok (segments s vs) ∧ vs.length = fs.length ∧ fs.Pairwise (· < ·) ∧
      fs.getLast? = some 1 ∧
      ∀ (i : ℕ) (v : V3) (f : ℝ), vs[i]? = some v → fs[i]? = some f → 0 < f ∧ f ≤ 1 ∧
        p.height v = p.height s + f * (p.height (g.arcEnd s incr) - p.height s) ∧
        (f < 1 → ∃ k : ℝ, 0 < k ∧
          p.coord v - p.coord a.pCenter = k * (Complex.exp (-((f * a.angle : ℝ) * Complex.I)) *
            (p.coord s - p.coord a.pCenter))) := by
  have F := arcOf_ok p g s q incr arcIncr e a h
  obtain ⟨hr, -, hd1, hd2⟩ := C56_center p g s q incr arcIncr e a h hne
  have he' : 0 < a.maxError := by rw [F.maxError]; exact he
  obtain ⟨n, w, W⟩ := wedges a m he' hr hang
  obtain ⟨R, hR, hRr, -⟩ := outer_ok a m he' hr W
  have hv := iterVertices_ok a m W hR
  rw [whole_start p F, whole_end p F, lines_zip] at hv
  refine ⟨_, (List.range (inner m n)).map (fraction m n) ++ [1], hv, by simp, ?_, by simp, ?_⟩
  · rw [List.pairwise_append]
    refine ⟨?_, List.pairwise_singleton _ _, ?_⟩
    · rw [List.pairwise_map]
      exact List.pairwise_lt_range.imp (fun h => fraction_mono m W.pos h)
    · intro x hx y hy
      obtain ⟨i, hi, rfl⟩ := List.mem_map.1 hx
      rw [List.mem_singleton] at hy
      subst hy
      exact (fraction_range m W.pos (List.mem_range.1 hi)).2
  · intro i v f h1 h2
    rw [List.getElem?_append] at h1 h2
    simp only [List.length_map, List.length_range] at h1 h2
    by_cases hi : i < inner m n
    · rw [if_pos hi, List.getElem?_map, List.getElem?_range hi] at h1 h2
      simp only [Option.map_some, Option.some.injEq] at h1 h2
      subst h1 h2
      obtain ⟨hf0, hf1⟩ := fraction_range m W.pos hi
      have hrot := Pl.rotate p ((a.pStart - a.pCenter).normalized.mul R) (fraction m n i * a.angle)
      have hflat : p.height (a.pStart - a.pCenter) = 0 := by simp [F.hpStart, F.hpCenter]
      refine ⟨hf0, hf1.le, ?_, fun _ => ⟨R / a.radius, div_pos (hr.trans_le hRr) hr, ?_⟩⟩
      · unfold Arc.vertex
        simp only [F.normal, height_add, height_mul, height_sub, hrot.2, height_normalized p _ hflat, F.hpCenter,
          F.hStart, F.hEnd, height_normal, zero_mul, one_mul, zero_add, curAngle_fraction m a W,
          mul_div_cancel_right₀ _ hang]
        ring
      · unfold Arc.vertex
        simp only [F.normal, coord_add, coord_mul, coord_sub, hrot.1, coord_normalized p _ hflat, F.hStart, F.hEnd,
          coord_normal, zero_mul, sub_zero, add_zero, curAngle_fraction m a W, F.cStart, hd1]
        push_cast
        ring
    · rw [if_neg hi] at h1 h2
      have h0 : i - inner m n = 0 := by
        by_contra h0
        rw [List.getElem?_eq_none (by simp; omega)] at h1
        cases h1
      rw [h0] at h1 h2
      simp only [List.getElem?_cons_zero, Option.some.injEq] at h1 h2
      subst h1 h2
      exact ⟨one_pos, le_refl _, by ring, fun h => absurd h (lt_irrefl _)⟩

end Pygcode
