import Verif.Props.ArcHelix
import Verif.Props.NormArcPath
import Verif.Props.NormArcSample

/-!
# `pygcode-norm --arc_linearize`: the printed moves keep step with the arc, in space (C114)
-/

namespace Pygcode
open Props Machine Spec Pl

/-- The height at which an arc from `s` ends, in the XY plane: its word Z, added to the start in distance mode G91; without
it the height of the start. -/
noncomputable def arcTopOf (m : Machine) (g : GCode) (s : V3) : ℝ :=
  if (m.mode 3).map GCode.cls = some .incrementalDistanceMode then s.z + ((g.num? 'Z').getD 0 : ℚ)
  else ((g.num? 'Z').map Rat.cast).getD s.z

theorem incremental_eq {m : Machine} (hm : Sound m) :
    m.incremental = decide ((m.mode 3).map GCode.cls = some .incrementalDistanceMode) := by
  unfold Machine.incremental Mode.distance
  cases hg : m.mode 3 with
  | none => rfl
  | some d =>
    obtain ⟨h1, h2, -⟩ := hm.ok 3 d hg
    have h4 := Cls.forall_of_all (p := fun c => c.group ≠ some 3 ∨ c.isSub .incrementalDistanceMode = decide (some c = some .incrementalDistanceMode))
      (by decide +kernel) d.cls
    simpa [h1] using h4

theorem arcTopOf_eq {m : Machine} (hm : Sound m) (g : GCode) (s : V3) : (g.arcEnd s m.incremental).z = arcTopOf m g s := by
  unfold arcTopOf
  rw [incremental_eq hm]
  by_cases hi : (m.mode 3).map GCode.cls = some .incrementalDistanceMode
  · rw [if_pos hi, decide_eq_true hi]
    rfl
  · rw [if_neg hi, decide_eq_false hi]
    simp [GCode.arcEnd]

theorem reached_off (inc : Bool) (off : Axis → ℚ) {τ : ℚ} (vs : List Q3) : ∀ {s t : Axis → ℚ}, 0 ≤ τ → (∀ a, |s a - t a| ≤ τ) →
    ∀ a, |reached inc off s vs a - reached inc off t vs a| ≤ τ := by
  induction vs with
  | nil => exact fun _ h => h
  | cons v vs ih =>
    intro s t hτ h
    refine ih hτ fun a => ?_
    cases inc
    · simpa using hτ
    · simpa using h a

/-- C114 for a reader whose position is off by up to `τ` along each axis. -/
theorem printed_step (o : NormOpts) (hr : o.rmGcodes = []) (x : ArcOpts) (fl : Floats) (ε : ℚ) (hε0 : 0 ≤ ε)
    (hε : ε < 1 / 2000) (hfl : FloatsOK ε fl) {τ : ℚ} (hτ : 0 ≤ τ) (m d b : Machine) (hm : Sound m)
    (hb : Sound b) (hmd : NearTo m d) (hdb : Off τ d b)
    (hax : m.axes = xyz) (g : GCode) (p : Position) (hp : m.pos = .ok p) (s : V3) (hs : p.vector = s) (am : ArcMethod)
    (hpl : m.mode.plane.map GCode.cls = none ∨ m.mode.plane.map GCode.cls = some .selectXYPlane)
    (hneq : xy.coord s ≠ arcEndOf m g s)
    (hL : linearizeArc g p (m.mode.plane.map GCode.cls) (some am) m.incremental (arcIncremental m) x.precision 3 =
      (arcVertices x m p am g, .done))
    (hsm : ∀ v ∈ arcVertices x m p am g, ∀ a ∈ xyz, |v.at a| ≤ 999) :
    ∃ (c : ℂ) (A : ℝ), turned c (xy.coord s) A 1 = arcEndOf m g s ∧
      (g.cls.isSub .arcMoveCW = true → 0 < A ∧ A < 2 * Real.pi) ∧
      (g.cls.isSub .arcMoveCW = false → -(2 * Real.pi) < A ∧ A < 0) ∧
      (∀ y, g.num? 'R' = some y → ‖xy.coord s - c‖ = |(y : ℝ)| ∧ (0 < y → |A| ≤ Real.pi) ∧ (y < 0 → Real.pi ≤ |A|)) ∧
      (g.num? 'R' = none → MeanCentre (xy.coord s) (arcEndOf m g s) (arcCentreOf m g s) c) ∧
      0 < (o.arcMoves x fl m p am g).1.length ∧ ∀ n < (o.arcMoves x fl m p am g).1.length, ∃ b₁ b₂ p₁ p₂ u₁ u₂,
        readLines b (arcText o x fl m p am g n) = (b₁, none) ∧ b₁.pos = .ok p₁ ∧ p₁.vector = u₁ ∧
        readLines b (arcText o x fl m p am g (n + 1)) = (b₂, none) ∧ b₂.pos = .ok p₂ ∧ p₂.vector = u₂ ∧
        ∀ t, 0 ≤ t → t ≤ 1 →
          |(onSegment (u₁, u₂) t).z - (s.z + (lineTime am (o.arcMoves x fl m p am g).1.length n +
              t * (lineTime am (o.arcMoves x fl m p am g).1.length (n + 1) - lineTime am (o.arcMoves x fl m p am g).1.length n)) *
            (arcTopOf m g s - s.z))| ≤ τ + (ε + 1 / 2000) ∧
          ‖xy.coord (onSegment (u₁, u₂) t) - turned c (xy.coord s) A (lineTime am (o.arcMoves x fl m p am g).1.length n +
              t * (lineTime am (o.arcMoves x fl m p am g).1.length (n + 1) - lineTime am (o.arcMoves x fl m p am g).1.length n))‖ ≤
            allowed am x.precision + 2 * (τ + (ε + 1 / 2000)) := by
  rw [← arcEndOf_eq hm, ← arcCentreOf_eq hm, ← arcTopOf_eq hm]
  have hne : xy.coord s ≠ xy.coord (g.arcEnd s m.incremental) := by rwa [arcEndOf_eq hm]
  set vs := arcVertices x m p am g with hvs
  have hmv : o.arcMoves x fl m p am g = o.omitGen ((fl m g vs).map linearTo, .done) := by
    have : o.arcMoves x fl m p am g = o.omitGen ((fl m g vs).map linearTo,
      (linearizeArc g p (m.mode.plane.map GCode.cls) (some am) m.incremental (arcIncremental m) x.precision 3).2) := rfl
    rw [this, hL]
  have hap := hfl m g vs hsm
  generalize hqs : fl m g vs = qs at hap hmv
  have hqsm : ∀ q ∈ qs, q.Small := fun q hq => by
    obtain ⟨v, hv, hqv⟩ := forall₂_left hap hq
    exact approx_small hε hqv (hsm v hv)
  have hpos := hp
  rw [pos_ok m hm.wf (not_bad hm)] at hpos
  have hpv : ∀ a ∈ xyz, p.val a = m.absPos.val a - offOf m a := by
    intro a _
    rw [← Except.ok.inj hpos]
    show m.absPos.val a - m.sysOff a - m.state.offset.val a = _
    unfold offOf; ring
  obtain ⟨pl, sv, q, aa, ls, D, hstops⟩ := stops_near g p _ am _ _ _ vs hL ε hε0 hε qs hap (offOf m) m.absPos.val hpv
  obtain rfl : s = sv := by exact hs.symm.trans D.start
  have hplx : pl = xy := by
    have := D.plane
    rcases hpl with hpl | hpl <;> rw [hpl] at this <;> cases pl <;> first | rfl | (exact absurd this (by decide))
  subst hplx
  obtain rfl : Quat.one = q := Option.some.inj D.quat
  obtain ⟨c1, c2, c3, c4⟩ := C56_center xy g s _ _ _ _ aa D.ok hne
  obtain ⟨e5, e6, e7⟩ := C58_xy_partial g s _ _ _ aa D.ok
  have F := arcOf_ok xy g s _ _ _ _ aa D.ok
  have hang := angle_ne xy aa (sweeps_xy g s _ _ _ aa D.ok) (by rw [F.cStart, F.cEnd]; exact hne)
  have hend : turned (xy.coord aa.pCenter) (xy.coord s) aa.angle 1 = xy.coord (g.arcEnd s m.incremental) := by
    unfold turned
    rw [one_mul, ← e5]; ring
  obtain ⟨ls', h5, h6⟩ := C113_step xy g s _ _ _ _ aa D.ok hne D.pos hend am
  obtain rfl : ls = ls' := by have := D.verts; rw [h5] at this; exact (Except.ok.inj this).symm
  obtain ⟨vs', hsh, hseg⟩ := done_shape D
  refine ⟨xy.coord aa.pCenter, aa.angle, hend, ?_, ?_, ?_, fun hR => C121_mean xy g s _ _ _ _ aa D.ok hne hR, ?_⟩
  · intro hc; exact ⟨lt_of_le_of_ne (e6 hc).1 (Ne.symm hang), (e6 hc).2⟩
  · intro hc; exact ⟨(e7 hc).1, lt_of_le_of_ne (e7 hc).2 hang⟩
  · intro y hy
    have e8 := C58_half_partial g s _ _ _ aa D.ok hne y hy
    exact ⟨by rw [c3, C56_radius xy g s _ _ _ _ aa D.ok y hy], e8.1, e8.2⟩
  -- the lines, written with the rounded coordinates
  have hbax : b.axes = xyz := (hmd.axes.trans hdb.axes).symm.trans hax
  have hinc : b.incremental = m.incremental := (hmd.incremental.trans hdb.incremental).symm
  have hoffb : offOf b = offOf m := by
    funext a; unfold offOf; rw [hmd.sysOff, hdb.sysOff, hmd.state, hdb.state]
  have htext : ∀ n, arcText o x fl m p am g n =
      ((o.omitGen ((qs.map Q3.printed).map linearTo, .done)).1.take n).flatMap (fun g => o.writeOne [g] [] none none) := by
    intro n
    unfold arcText
    rw [hmv]
    exact omitGen_take o qs n
  have hlen : (o.arcMoves x fl m p am g).1.length = qs.length := by
    rw [hmv]
    unfold NormOpts.omitGen
    split_ifs
    · simp
    · simp only
      rw [omit_linear qs newNull (reader_null xyz)]
      simp only [Gen.andThen, List.append_nil]
      cases qs <;> simp
  have hread : ∀ n, ∃ b₁ p₁ u₁, readLines b (arcText o x fl m p am g n) = (b₁, none) ∧ b₁.pos = .ok p₁ ∧
      p₁.vector = u₁ ∧ ∀ a ∈ xyz, |u₁.at a -
        ((reached m.incremental (offOf m) m.absPos.val ((qs.map Q3.printed).take n) a - offOf m a : ℚ) : ℝ)| ≤ (τ : ℝ) := by
    intro n
    obtain ⟨b₁, r1, r2, r3, r4, r5, r6, r7, r8⟩ := printed_read o hr hb hbax qs hqsm n
    rw [← htext n] at r1
    refine ⟨b₁, _, ⟨b₁.absPos.val .X - b₁.sysOff .X - b₁.state.offset.val .X,
      b₁.absPos.val .Y - b₁.sysOff .Y - b₁.state.offset.val .Y, b₁.absPos.val .Z - b₁.sysOff .Z - b₁.state.offset.val .Z⟩, r1,
      pos_ok b₁ r2.wf (not_bad r2), ?_, ?_⟩
    · unfold Position.vector
      push_cast
      rfl
    · intro a ha
      have e1 := r8 a ha
      rw [hinc, hoffb] at e1
      have e2 : b₁.sysOff = m.sysOff := by
        funext y; unfold Machine.sysOff; rw [r5, hmd.state, hdb.state]
      have e3 := reached_off m.incremental (offOf m) ((qs.map Q3.printed).take n) (s := b.absPos.val) (t := m.absPos.val) hτ
        (fun a => by rw [hmd.abs, abs_sub_comm]; exact hdb.dist a) a
      rw [← e1] at e3
      have e4 : |(b₁.absPos.val a - offOf m a) -
          (reached m.incremental (offOf m) m.absPos.val ((qs.map Q3.printed).take n) a - offOf m a)| ≤ τ := by
        rw [sub_sub_sub_cancel_right]; exact e3
      have e5 : (⟨b₁.absPos.val .X - b₁.sysOff .X - b₁.state.offset.val .X, b₁.absPos.val .Y - b₁.sysOff .Y - b₁.state.offset.val .Y,
          b₁.absPos.val .Z - b₁.sysOff .Z - b₁.state.offset.val .Z⟩ : V3).at a = ((b₁.absPos.val a - offOf m a : ℚ) : ℝ) := by
        unfold offOf
        rcases mem_xyz ha with rfl | rfl | rfl <;>
          · simp only [V3.at, e2, r5, hmd.state, hdb.state]
            push_cast
            ring
      rw [e5]
      exact_mod_cast e4
  have hlsN : ls.length = (o.arcMoves x fl m p am g).1.length := by
    rw [hlen, ← List.length_map (f := Prod.snd), ← hstops.length_eq, stops_length, List.length_map]
  refine ⟨?_, ?_⟩
  · rw [← hlsN, ← List.length_map (f := Prod.snd), hsh]; simp
  intro n hn
  rw [← hlsN]
  rw [hlen] at hn
  obtain ⟨b₁, p₁, u₁, k1, k2, k3, k4⟩ := hread n
  obtain ⟨b₂, p₂, u₂, l1, l2, l3, l4⟩ := hread (n + 1)
  refine ⟨b₁, b₂, p₁, p₂, u₁, u₂, k1, k2, k3, l1, l2, l3, ?_⟩
  -- the exact vertices
  have hlsl : (ls.map Prod.snd).length = qs.length := by
    rw [← hstops.length_eq, stops_length, List.length_map]
  have hidx : ∀ k (hk : k < qs.length), ∃ w, (ls.map Prod.snd)[k]? = some w ∧
      ∀ a ∈ xyz, |((reached m.incremental (offOf m) m.absPos.val ((qs.map Q3.printed).take (k + 1)) a - offOf m a : ℚ) : ℝ) - w.at a| ≤
        ((ε + 1 / 2000 : ℚ) : ℝ) := by
    intro k hk
    have hk1 : k < (stops m.incremental (offOf m) m.absPos.val (qs.map Q3.printed)).length := by
      rw [stops_length, List.length_map]; exact hk
    have hk2 : k < (ls.map Prod.snd).length := by rw [hlsl]; exact hk
    have := hstops.get hk1 hk2
    refine ⟨(ls.map Prod.snd)[k], List.getElem?_eq_getElem hk2, ?_⟩
    have hre := stops_reached m.incremental (offOf m) (qs.map Q3.printed) m.absPos.val k _ (List.getElem?_eq_getElem hk1)
    rw [hre]
    exact this
  have hη : (0 : ℝ) ≤ ((ε + 1 / 2000 : ℚ) : ℝ) := by
    have : (0 : ℚ) ≤ ε + 1 / 2000 := by linarith
    exact_mod_cast this
  obtain ⟨w₂, hw₂, hw₂e⟩ := hidx n hn
  obtain ⟨w₁, hw₁, hw₁e⟩ : ∃ w, (s :: ls.map Prod.snd)[n]? = some w ∧
      ∀ a ∈ xyz, |((reached m.incremental (offOf m) m.absPos.val ((qs.map Q3.printed).take n) a - offOf m a : ℚ) : ℝ) - w.at a| ≤
        ((ε + 1 / 2000 : ℚ) : ℝ) := by
    cases n with
    | zero =>
      refine ⟨s, rfl, ?_⟩
      intro a ha
      rw [List.take_zero]
      show |((m.absPos.val a - offOf m a : ℚ) : ℝ) - s.at a| ≤ _
      rw [← hpv a ha]
      have hst := hs
      unfold Position.vector at hst
      obtain rfl := hst
      rcases mem_xyz ha with rfl | rfl | rfl <;> simpa [V3.at] using hη
    | succ n =>
      obtain ⟨w, h1, h2⟩ := hidx n (by omega)
      exact ⟨w, by rw [List.getElem?_cons_succ]; exact h1, h2⟩
  have hmem : ls[n]? = some (w₁, w₂) := by
    rw [hseg]
    unfold segments
    rw [List.getElem?_zip_eq_some]
    exact ⟨hw₁, hw₂⟩
  intro t ht0 ht1
  obtain ⟨hz, hxy⟩ := (h6.2.2 n _ hmem).2 t ht0 ht1
  have hall := onSegment_close (t := t) ht0 ht1 (u := u₁) (v := u₂) (u' := w₁) (v' := w₂)
    (τ := ((τ + (ε + 1 / 2000) : ℚ) : ℝ))
    (fun a ha => by
      have := (abs_sub_le _ _ _).trans (add_le_add (k4 a ha) (hw₁e a ha))
      rw [Rat.cast_add]; exact this)
    (fun a ha => by
      have := (abs_sub_le _ _ _).trans (add_le_add (l4 a ha) (hw₂e a ha))
      rw [Rat.cast_add]; exact this)
  have hclose := coord_close hall
  refine ⟨?_, ?_⟩
  · have h9 := hall .Z (by decide)
    have h10 : (onSegment (w₁, w₂) t).at .Z = xy.height (onSegment (w₁, w₂) t) := rfl
    rw [h10, hz] at h9
    push_cast at h9
    exact h9
  · have := norm_sub_le_norm_sub_add_norm_sub (xy.coord (onSegment (u₁, u₂) t)) (xy.coord (onSegment (w₁, w₂) t))
      (turned (xy.coord aa.pCenter) (xy.coord s) aa.angle (lineTime am ls.length n + t * (lineTime am ls.length (n + 1) - lineTime am ls.length n)))
    push_cast at hclose
    linarith

/-- **C114**: XY plane.  Whatever the distance mode, there is one helix from the start of the arc to its end, about the given
centre or with the given radius, in the given direction; a machine that reads the printed lines, at the position of the
script's one, moves along `n`-th line in step with it: as high as the helix up to the error of a coordinate (`ε` and half a
thousandth), and aside of it by no more than the method allows and twice that error. -/
theorem C114_printed (o : NormOpts) (hr : o.rmGcodes = []) (x : ArcOpts) (fl : Floats) (ε : ℚ) (hε0 : 0 ≤ ε)
    (hε : ε < 1 / 2000) (hfl : FloatsOK ε fl) (m b : Machine) (hm : Sound m) (hb : Sound b) (h : NearTo m b)
    (hax : m.axes = xyz) (g : GCode) (p : Position) (hp : m.pos = .ok p) (s : V3) (hs : p.vector = s) (am : ArcMethod)
    (hpl : m.mode.plane.map GCode.cls = none ∨ m.mode.plane.map GCode.cls = some .selectXYPlane)
    (hneq : xy.coord s ≠ arcEndOf m g s)
    (hL : linearizeArc g p (m.mode.plane.map GCode.cls) (some am) m.incremental (arcIncremental m) x.precision 3 =
      (arcVertices x m p am g, .done))
    (hsm : ∀ v ∈ arcVertices x m p am g, ∀ a ∈ xyz, |v.at a| ≤ 999) :
    ∃ (c : ℂ) (A : ℝ), turned c (xy.coord s) A 1 = arcEndOf m g s ∧
      (g.cls.isSub .arcMoveCW = true → 0 < A ∧ A < 2 * Real.pi) ∧
      (g.cls.isSub .arcMoveCW = false → -(2 * Real.pi) < A ∧ A < 0) ∧
      (∀ y, g.num? 'R' = some y → ‖xy.coord s - c‖ = |(y : ℝ)| ∧ (0 < y → |A| ≤ Real.pi) ∧ (y < 0 → Real.pi ≤ |A|)) ∧
      (g.num? 'R' = none → MeanCentre (xy.coord s) (arcEndOf m g s) (arcCentreOf m g s) c) ∧
      ∀ n < (o.arcMoves x fl m p am g).1.length, ∃ b₁ b₂ p₁ p₂ u₁ u₂,
        readLines b (arcText o x fl m p am g n) = (b₁, none) ∧ b₁.pos = .ok p₁ ∧ p₁.vector = u₁ ∧
        readLines b (arcText o x fl m p am g (n + 1)) = (b₂, none) ∧ b₂.pos = .ok p₂ ∧ p₂.vector = u₂ ∧
        ∀ t, 0 ≤ t → t ≤ 1 →
          |(onSegment (u₁, u₂) t).z - (s.z + (lineTime am (o.arcMoves x fl m p am g).1.length n +
              t * (lineTime am (o.arcMoves x fl m p am g).1.length (n + 1) - lineTime am (o.arcMoves x fl m p am g).1.length n)) *
            (arcTopOf m g s - s.z))| ≤ ε + 1 / 2000 ∧
          ‖xy.coord (onSegment (u₁, u₂) t) - turned c (xy.coord s) A (lineTime am (o.arcMoves x fl m p am g).1.length n +
              t * (lineTime am (o.arcMoves x fl m p am g).1.length (n + 1) - lineTime am (o.arcMoves x fl m p am g).1.length n))‖ ≤
            allowed am x.precision + 2 * (ε + 1 / 2000) := by
  have := printed_step o hr x fl ε hε0 hε hfl (le_refl 0) m b b hm hb h (Off.rfl' b) hax g p hp s hs am hpl hneq hL hsm
  simp only [Rat.cast_zero, zero_add] at this
  obtain ⟨c, A, h1, h2, h3, h4, h5, -, h6⟩ := this
  exact ⟨c, A, h1, h2, h3, h4, h5, h6⟩

/-! ## Instance -/

/-- `G2 X1 Y1 Z2 I1` -/
def cornerHelix : GCode := ⟨.arcMoveCW, ⟨'G', .num 2⟩, [⟨'X', .num 1⟩, ⟨'Y', .num 1⟩, ⟨'Z', .num 2⟩, ⟨'I', .num 1⟩], false⟩

/-- The printed lines, read by a machine at the origin: in each line, at the part `t` of it, there is a time `f` such that the
machine is within 6/10000 of the height `2 f` and within 112/10000 of the point `1 - exp (-i f π/2)` of the circle around (1, 0). -/
example (am : ArcMethod) : ∃ p, newNull.pos = .ok p ∧
    ∀ n < (expandOpts.arcMoves arcSampleOpts floorFloats newNull p am cornerHelix).1.length, ∃ b₁ b₂ p₁ p₂ u₁ u₂,
      readLines newNull (arcText expandOpts arcSampleOpts floorFloats newNull p am cornerHelix n) = (b₁, none) ∧
      b₁.pos = .ok p₁ ∧ p₁.vector = u₁ ∧
      readLines newNull (arcText expandOpts arcSampleOpts floorFloats newNull p am cornerHelix (n + 1)) = (b₂, none) ∧
      b₂.pos = .ok p₂ ∧ p₂.vector = u₂ ∧
      ∀ t, 0 ≤ t → t ≤ 1 → ∃ f : ℝ, |(onSegment (u₁, u₂) t).z - f * 2| ≤ 6 / 10000 ∧
        ‖xy.coord (onSegment (u₁, u₂) t) - (1 - Complex.exp (-((f * (Real.pi / 2) : ℝ) * Complex.I)))‖ ≤ 112 / 10000 := by
  have hfine : arcFine newNull cornerHelix = true := by decide +kernel
  obtain ⟨⟨p, hp⟩, -⟩ := method_fine hfine arcSampleOpts
  refine ⟨p, hp, ?_⟩
  have hm : Sound newNull := (reader_null xyz).sound
  have hpz : p.axes = xyz ∧ p.val .X = 0 ∧ p.val .Y = 0 ∧ p.val .Z = 0 := by
    have : newNull.pos.map (fun p => (p.axes, p.val .X, p.val .Y, p.val .Z)) = .ok (xyz, 0, 0, 0) := by decide +kernel
    rw [hp] at this
    simpa [Except.map] using this
  have hs : p.vector = ⟨0, 0, 0⟩ := by
    unfold Position.vector
    rw [hpz.2.1, hpz.2.2.1, hpz.2.2.2]
    simp
  have hinc : newNull.incremental = false := by decide +kernel
  have hainc : arcIncremental newNull = true := by decide +kernel
  have hE : cornerHelix.arcEnd ⟨0, 0, 0⟩ false = ⟨1, 1, 2⟩ := by
    simp [cornerHelix, GCode.arcEnd, GCode.num?, GCode.param, Word.num]
  have hC : xy.coord (cornerHelix.arcCenter ⟨0, 0, 0⟩ true) = 1 := by
    apply Complex.ext <;> simp [GCode.arcCenter, cornerHelix, GCode.num?, GCode.param, Word.num, Pl.coord, add_mk]
  obtain ⟨vs, hvs, hsm⟩ := arcFine_spec hfine hp (e := arcSampleOpts.precision) (by norm_num [arcSampleOpts])
    (by norm_num [arcSampleOpts]) am 3
  have hav : arcVertices arcSampleOpts newNull p am cornerHelix = vs := by unfold arcVertices; rw [hvs]
  obtain ⟨c, A, h1, h2, -, -, h4, h5⟩ := C114_printed expandOpts rfl arcSampleOpts floorFloats (1 / 10000) (by norm_num) (by norm_num)
    floorFloats_ok newNull newNull hm hm (.refl _) rfl cornerHelix p hp _ hs am (by decide +kernel)
    (by rw [← arcEndOf_eq hm, hinc, hE]; intro h; have := congrArg Complex.re h; simp [Pl.coord] at this)
    (by rw [hav]; exact hvs) (by rw [hav]; exact hsm)
  have a : xy.coord ⟨0, 0, 0⟩ - 1 = -1 := by apply Complex.ext <;> simp [Pl.coord]
  have b : xy.coord ⟨1, 1, 2⟩ - 1 = Complex.I := by apply Complex.ext <;> simp [Pl.coord]
  rw [← arcEndOf_eq hm, ← arcCentreOf_eq hm, hinc, hainc, hE, hC] at h4
  have hc := (h4 (by decide +kernel)).fits (by rw [a, b]; simp)
  subst hc
  rw [← arcEndOf_eq hm, hinc, hE] at h1
  obtain ⟨hA0, hA1⟩ := h2 (by decide)
  have hA : A = Real.pi / 2 := by
    have h6 : cw A = -Complex.I := by
      have : cw A * (xy.coord ⟨0, 0, 0⟩ - 1) = xy.coord ⟨1, 1, 2⟩ - 1 := by
        rw [← h1]; unfold turned cw; simp
      rw [a, b] at this
      linear_combination -this
    rw [cw_eq] at h6
    have h7 := congrArg Complex.im h6
    simp only [Complex.neg_im, Complex.I_im] at h7
    have h8 : Real.cos (A - Real.pi / 2) = 1 := by rw [Real.cos_sub_pi_div_two]; linarith
    have := (Real.cos_eq_one_iff_of_lt_of_lt (by linarith [Real.pi_pos]) (by linarith [Real.pi_pos])).1 h8
    linarith
  subst hA
  intro n hn
  obtain ⟨b₁, b₂, p₁, p₂, u₁, u₂, k1, k2, k3, k4, k5, k6, k7⟩ := h5 n hn
  refine ⟨b₁, b₂, p₁, p₂, u₁, u₂, k1, k2, k3, k4, k5, k6, fun t t0 t1 => ?_⟩
  have k8 := k7 t t0 t1
  generalize lineTime am (expandOpts.arcMoves arcSampleOpts floorFloats newNull p am cornerHelix).1.length n +
      t * (lineTime am (expandOpts.arcMoves arcSampleOpts floorFloats newNull p am cornerHelix).1.length (n + 1) -
        lineTime am (expandOpts.arcMoves arcSampleOpts floorFloats newNull p am cornerHelix).1.length n) = f at k8
  refine ⟨f, ?_, ?_⟩
  · have h9 := k8.1
    rw [← arcTopOf_eq hm, hinc, hE] at h9
    simp only [zero_add, sub_zero] at h9
    refine h9.trans ?_
    norm_num
  · have h9 := k8.2
    have hσ : ∀ f, turned 1 (xy.coord ⟨0, 0, 0⟩) (Real.pi / 2) f = 1 - Complex.exp (-((f * (Real.pi / 2) : ℝ) * Complex.I)) := by
      intro f
      unfold turned
      rw [a]; ring
    rw [hσ] at h9
    refine h9.trans ?_
    cases am <;> norm_num [allowed, arcSampleOpts]

end Pygcode
