import Verif.Props.ArcAccept
import Verif.Props.NormArc

/-!
# `pygcode-norm --arc_linearize`: the path that is read back, and the values of its option (C73, C74)
-/

namespace Pygcode
open Props Machine Spec Pl

/-! ## The path -/

/-- The lines printed for the first `n` moves that replace an arc. -/
noncomputable def arcText (o : NormOpts) (x : ArcOpts) (fl : Floats) (m : Machine) (p : Position) (am : ArcMethod) (g : GCode)
    (n : ℕ) : List (List Char) :=
  ((o.arcMoves x fl m p am g).1.take n).flatMap (fun g => o.writeOne [g] [] none none)

theorem at_ext {u v : V3} (h : ∀ a ∈ xyz, u.at a = v.at a) : u = v :=
  V3.ext (h .X (by decide)) (h .Y (by decide)) (h .Z (by decide))

theorem coord_close {u v : V3} {τ : ℝ} (h : ∀ a ∈ xyz, |u.at a - v.at a| ≤ τ) : ‖xy.coord u - xy.coord v‖ ≤ 2 * τ := by
  have hx : |u.x - v.x| ≤ τ := h .X (by decide)
  have hy : |u.y - v.y| ≤ τ := h .Y (by decide)
  have e : xy.coord u - xy.coord v = ((u.x - v.x : ℝ) : ℂ) + ((u.y - v.y : ℝ) : ℂ) * Complex.I := by
    apply Complex.ext <;> simp [Pl.coord]
  rw [e]
  refine (norm_add_le _ _).trans ?_
  rw [norm_mul, Complex.norm_I, mul_one, Complex.norm_real, Complex.norm_real, Real.norm_eq_abs, Real.norm_eq_abs]
  linarith

theorem onSegment_close {u v u' v' : V3} {τ t : ℝ} (h0 : 0 ≤ t) (h1 : t ≤ 1) (hu : ∀ a ∈ xyz, |u.at a - u'.at a| ≤ τ)
    (hv : ∀ a ∈ xyz, |v.at a - v'.at a| ≤ τ) : ∀ a ∈ xyz, |(onSegment (u, v) t).at a - (onSegment (u', v') t).at a| ≤ τ := by
  have key : ∀ p q p' q' : ℝ, |p - p'| ≤ τ → |q - q'| ≤ τ → |(p + (q - p) * t) - (p' + (q' - p') * t)| ≤ τ := by
    intro p q p' q' hp hq
    rw [show (p + (q - p) * t) - (p' + (q' - p') * t) = (1 - t) * (p - p') + t * (q - q') by ring]
    refine (abs_add_le _ _).trans ?_
    rw [abs_mul, abs_mul, abs_of_nonneg h0, abs_of_nonneg (by linarith : 0 ≤ 1 - t)]
    have e1 : (1 - t) * |p - p'| ≤ (1 - t) * τ := mul_le_mul_of_nonneg_left hp (by linarith)
    have e2 : t * |q - q'| ≤ t * τ := mul_le_mul_of_nonneg_left hq h0
    linarith
  intro a ha
  have e1 := hu a ha
  have e2 := hv a ha
  have e : ∀ (u v : V3), (onSegment (u, v) t).at a = u.at a + (v.at a - u.at a) * t := by
    intro u v
    unfold onSegment
    rw [add_at]
    congr 1
    rcases mem_xyz ha with rfl | rfl | rfl 
    · rfl
    · rfl
    · rfl
  rw [e, e]
  exact key _ _ _ _ e1 e2

/-- The end of an arc from `s`, in the XY plane: its words X and Y, added to the start in distance mode G91; a word not
given leaves the coordinate of the start. -/
noncomputable def arcEndOf (m : Machine) (g : GCode) (s : V3) : ℂ :=
  if (m.mode 3).map GCode.cls = some .incrementalDistanceMode then
    ⟨s.x + ((g.num? 'X').getD 0 : ℚ), s.y + ((g.num? 'Y').getD 0 : ℚ)⟩
  else ⟨((g.num? 'X').map Rat.cast).getD s.x, ((g.num? 'Y').map Rat.cast).getD s.y⟩

/-- The centre of an arc from `s`, in the XY plane: its words I and J, added to the start unless the mode is G90.1. -/
noncomputable def arcCentreOf (m : Machine) (g : GCode) (s : V3) : ℂ :=
  if (m.mode 4).map GCode.cls = some .absoluteArcDistanceMode then ⟨((g.num? 'I').getD 0 : ℚ), ((g.num? 'J').getD 0 : ℚ)⟩
  else ⟨s.x + ((g.num? 'I').getD 0 : ℚ), s.y + ((g.num? 'J').getD 0 : ℚ)⟩

theorem arcEndOf_eq {m : Machine} (hm : Sound m) (g : GCode) (s : V3) : xy.coord (g.arcEnd s m.incremental) = arcEndOf m g s := by
  have h : m.incremental = decide ((m.mode 3).map GCode.cls = some .incrementalDistanceMode) := by
    unfold Machine.incremental Mode.distance
    cases hg : m.mode 3 with
    | none => rfl
    | some d =>
      obtain ⟨h1, h2, -⟩ := hm.ok 3 d hg
      have h4 := Cls.forall_of_all (p := fun c => c.group ≠ some 3 ∨ c.isSub .incrementalDistanceMode = decide (some c = some .incrementalDistanceMode))
        (by decide +kernel) d.cls
      simpa [h1] using h4
  unfold arcEndOf
  by_cases hi : (m.mode 3).map GCode.cls = some .incrementalDistanceMode
  · rw [h, if_pos hi, decide_eq_true hi]
    rfl
  · rw [h, if_neg hi, decide_eq_false hi]
    apply Complex.ext <;> simp [GCode.arcEnd, Pl.coord] <;> rfl

theorem arcCentreOf_eq {m : Machine} (hm : Sound m) (g : GCode) (s : V3) :
    xy.coord (g.arcCenter s (arcIncremental m)) = arcCentreOf m g s := by
  have h : arcIncremental m = decide ((m.mode 4).map GCode.cls ≠ some .absoluteArcDistanceMode) := by
    unfold arcIncremental
    cases hg : m.mode 4 with
    | none => rfl
    | some d =>
      obtain ⟨h1, h2, -⟩ := hm.ok 4 d hg
      have h4 := Cls.forall_of_all (p := fun c => c.group ≠ some 4 ∨
          c.isSub .incrementalArcDistanceMode = decide (some c ≠ some .absoluteArcDistanceMode))
        (by decide +kernel) d.cls
      simpa [h1] using h4
  unfold arcCentreOf
  by_cases hi : (m.mode 4).map GCode.cls = some .absoluteArcDistanceMode
  · rw [h, if_pos hi, decide_eq_false (not_not.2 hi)]
    apply Complex.ext <;> simp [GCode.arcCenter, Pl.coord]
  · rw [h, if_neg hi, decide_eq_true hi]
    exact Complex.ext (add_comm _ _) (add_comm _ _)

/-- **C73**: XY plane.  Whatever the distance mode, start and end of the arc lie on a circle (of the
given radius, or about the given centre), and the path of a machine that reads the printed lines, at
the position of the script's one, strays from that circle by no more than the given precision and
twice the error of the coordinates (`ε` and half a thousandth). -/
theorem C73_path (o : NormOpts) (hr : o.rmGcodes = []) (x : ArcOpts) (fl : Floats) (ε : ℚ) (hε0 : 0 ≤ ε)
    (hε : ε < 1 / 2000) (hfl : FloatsOK ε fl) (m b : Machine) (hm : Sound m) (hb : Sound b) (h : NearTo m b)
    (hax : m.axes = xyz) (g : GCode) (p : Position) (hp : m.pos = .ok p) (s : V3) (hs : p.vector = s) (am : ArcMethod)
    (hpl : m.mode.plane.map GCode.cls = none ∨ m.mode.plane.map GCode.cls = some .selectXYPlane)
    (hneq : xy.coord s ≠ arcEndOf m g s)
    (hL : linearizeArc g p (m.mode.plane.map GCode.cls) (some am) m.incremental (arcIncremental m) x.precision 3 =
      (arcVertices x m p am g, .done))
    (hsm : ∀ v ∈ arcVertices x m p am g, ∀ a ∈ xyz, |v.at a| ≤ 999) :
    ∃ (c : ℂ) (r : ℝ), 0 < r ∧ ‖xy.coord s - c‖ = r ∧ ‖arcEndOf m g s - c‖ = r ∧
      (∀ y, g.num? 'R' = some y → r = |(y : ℝ)|) ∧
      (g.num? 'R' = none → MeanCentre (xy.coord s) (arcEndOf m g s) (arcCentreOf m g s) c) ∧
      ∀ n < (o.arcMoves x fl m p am g).1.length, ∃ b₁ b₂ p₁ p₂ u₁ u₂,
        readLines b (arcText o x fl m p am g n) = (b₁, none) ∧ b₁.pos = .ok p₁ ∧ p₁.vector = u₁ ∧
        readLines b (arcText o x fl m p am g (n + 1)) = (b₂, none) ∧ b₂.pos = .ok p₂ ∧ p₂.vector = u₂ ∧
        ∀ t, 0 ≤ t → t ≤ 1 →
          |‖xy.coord (onSegment (u₁, u₂) t) - c‖ - r| ≤ x.precision + 2 * (ε + 1 / 2000) := by
  rw [← arcEndOf_eq hm, ← arcCentreOf_eq hm]
  have hne : xy.coord s ≠ xy.coord (g.arcEnd s m.incremental) := by rwa [arcEndOf_eq hm]
  set vs := arcVertices x m p am g with hvs
  have hmv : o.arcMoves x fl m p am g = o.omitGen ((fl m g vs).map linearTo, .done) := by
    have : o.arcMoves x fl m p am g = o.omitGen ((fl m g vs).map linearTo,
      (linearizeArc g p (m.mode.plane.map GCode.cls) (some am) m.incremental (arcIncremental m) x.precision 3).2) := rfl
    rw [this, hL]
  have hap := hfl m g vs hsm
  generalize hqs : fl m g vs = qs at hap hmv
  have hqsm : ∀ q ∈ qs, q.Small := fun q hq => by
    obtain ⟨v, hv, hqv⟩ := forall₂_left hap hq
    exact approx_small hε hqv (hsm v hv)
  have hpos := hp
  rw [pos_ok m hm.wf (not_bad hm)] at hpos
  have hpv : ∀ a ∈ xyz, p.val a = m.absPos.val a - offOf m a := by
    intro a _
    rw [← Except.ok.inj hpos]
    show m.absPos.val a - m.sysOff a - m.state.offset.val a = _
    unfold offOf; ring
  obtain ⟨pl, sv, q, aa, ls, D, hstops⟩ := stops_near g p _ am _ _ _ vs hL ε hε0 hε qs hap (offOf m) m.absPos.val hpv
  obtain rfl : s = sv := by exact hs.symm.trans D.start
  have hplx : pl = xy := by
    have := D.plane
    rcases hpl with hpl | hpl <;> rw [hpl] at this <;> cases pl <;> first | rfl | (exact absurd this (by decide))
  subst hplx
  obtain rfl : Quat.one = q := Option.some.inj D.quat
  obtain ⟨c1, c2, c3, c4⟩ := C56_center xy g s _ _ _ _ aa D.ok hne
  obtain ⟨ls', h5, h6⟩ := C57_error xy g s _ _ _ _ aa D.ok hne D.pos (sweeps_xy g s _ _ _ aa D.ok) am
  obtain rfl : ls = ls' := by have := D.verts; rw [h5] at this; exact (Except.ok.inj this).symm
  obtain ⟨-, -, hseg⟩ := done_shape D
  refine ⟨xy.coord aa.pCenter, aa.radius, c1, c3, c4, fun y hy => C56_radius xy g s _ _ _ _ aa D.ok y hy,
    fun hR => C121_mean xy g s _ _ _ _ aa D.ok hne hR, ?_⟩
  -- the lines, written with the rounded coordinates
  have hbax : b.axes = xyz := h.axes.symm.trans hax
  have hinc : b.incremental = m.incremental := by
    have h3 := h.mode 3 (by decide)
    unfold Machine.incremental
    show (match b.mode 3 with | some g => _ | none => _) = (match m.mode 3 with | some g => _ | none => _)
    generalize m.mode 3 = u at h3
    generalize b.mode 3 = w at h3
    cases h3 with
    | none => rfl
    | some s => simp only [s.1]
  have hoffb : offOf b = offOf m := by
    funext a; unfold offOf; rw [h.sysOff, h.state]
  have htext : ∀ n, arcText o x fl m p am g n =
      ((o.omitGen ((qs.map Q3.printed).map linearTo, .done)).1.take n).flatMap (fun g => o.writeOne [g] [] none none) := by
    intro n
    unfold arcText
    rw [hmv]
    exact omitGen_take o qs n
  have hlen : (o.arcMoves x fl m p am g).1.length = qs.length := by
    rw [hmv]
    unfold NormOpts.omitGen
    split_ifs
    · simp
    · simp only
      rw [omit_linear qs newNull (reader_null xyz)]
      simp only [Gen.andThen, List.append_nil]
      cases qs <;> simp
  have hread : ∀ n, ∃ b₁ p₁ u₁, readLines b (arcText o x fl m p am g n) = (b₁, none) ∧ b₁.pos = .ok p₁ ∧
      p₁.vector = u₁ ∧ ∀ a ∈ xyz, u₁.at a =
        ((reached m.incremental (offOf m) m.absPos.val ((qs.map Q3.printed).take n) a - offOf m a : ℚ) : ℝ) := by
    intro n
    obtain ⟨b₁, r1, r2, r3, r4, r5, r6, r7, r8⟩ := printed_read o hr hb hbax qs hqsm n
    rw [← htext n] at r1
    refine ⟨b₁, _, ⟨b₁.absPos.val .X - b₁.sysOff .X - b₁.state.offset.val .X,
      b₁.absPos.val .Y - b₁.sysOff .Y - b₁.state.offset.val .Y, b₁.absPos.val .Z - b₁.sysOff .Z - b₁.state.offset.val .Z⟩, r1,
      pos_ok b₁ r2.wf (not_bad r2), ?_, ?_⟩
    · unfold Position.vector
      push_cast
      rfl
    · intro a ha
      have e1 := r8 a ha
      rw [hinc, hoffb, ← h.abs] at e1
      rw [← e1]
      have e2 : b₁.sysOff = m.sysOff := by
        funext y; unfold Machine.sysOff; rw [r5, h.state]
      unfold offOf
      rcases mem_xyz ha with rfl | rfl | rfl <;>
        · simp only [V3.at, e2, r5, h.state]
          push_cast
          ring
  intro n hn
  rw [hlen] at hn
  obtain ⟨b₁, p₁, u₁, k1, k2, k3, k4⟩ := hread n
  obtain ⟨b₂, p₂, u₂, l1, l2, l3, l4⟩ := hread (n + 1)
  refine ⟨b₁, b₂, p₁, p₂, u₁, u₂, k1, k2, k3, l1, l2, l3, ?_⟩
  -- the exact vertices
  have hlsl : (ls.map Prod.snd).length = qs.length := by
    rw [← hstops.length_eq, stops_length, List.length_map]
  have hidx : ∀ k (hk : k < qs.length), ∃ w, (ls.map Prod.snd)[k]? = some w ∧
      ∀ a ∈ xyz, |((reached m.incremental (offOf m) m.absPos.val ((qs.map Q3.printed).take (k + 1)) a - offOf m a : ℚ) : ℝ) - w.at a| ≤
        ((ε + 1 / 2000 : ℚ) : ℝ) := by
    intro k hk
    have hk1 : k < (stops m.incremental (offOf m) m.absPos.val (qs.map Q3.printed)).length := by
      rw [stops_length, List.length_map]; exact hk
    have hk2 : k < (ls.map Prod.snd).length := by rw [hlsl]; exact hk
    have := hstops.get hk1 hk2
    refine ⟨(ls.map Prod.snd)[k], List.getElem?_eq_getElem hk2, ?_⟩
    have hre := stops_reached m.incremental (offOf m) (qs.map Q3.printed) m.absPos.val k _ (List.getElem?_eq_getElem hk1)
    rw [hre]
    exact this
  have hη : (0 : ℝ) ≤ ((ε + 1 / 2000 : ℚ) : ℝ) := by
    have : (0 : ℚ) ≤ ε + 1 / 2000 := by linarith
    exact_mod_cast this
  obtain ⟨w₂, hw₂, hw₂e⟩ := hidx n hn
  obtain ⟨w₁, hw₁, hw₁e⟩ : ∃ w, (s :: ls.map Prod.snd)[n]? = some w ∧
      ∀ a ∈ xyz, |((reached m.incremental (offOf m) m.absPos.val ((qs.map Q3.printed).take n) a - offOf m a : ℚ) : ℝ) - w.at a| ≤
        ((ε + 1 / 2000 : ℚ) : ℝ) := by
    cases n with
    | zero =>
      refine ⟨s, rfl, ?_⟩
      intro a ha
      rw [List.take_zero]
      show |((m.absPos.val a - offOf m a : ℚ) : ℝ) - s.at a| ≤ _
      rw [← hpv a ha]
      have hst := hs
      unfold Position.vector at hst
      obtain rfl := hst
      rcases mem_xyz ha with rfl | rfl | rfl <;> simpa [V3.at] using hη
    | succ n =>
      obtain ⟨w, h1, h2⟩ := hidx n (by omega)
      exact ⟨w, by rw [List.getElem?_cons_succ]; exact h1, h2⟩
  have hmem : (w₁, w₂) ∈ ls := by
    rw [hseg]
    unfold segments
    exact List.mem_iff_getElem?.2 ⟨n, by rw [List.getElem?_zip_eq_some]; exact ⟨hw₁, hw₂⟩⟩
  intro t ht0 ht1
  have hexact := h6 _ hmem t ht0 ht1
  have hclose := coord_close (onSegment_close (t := t) ht0 ht1 (u := u₁) (v := u₂) (u' := w₁) (v' := w₂)
    (fun a ha => by rw [k4 a ha]; exact hw₁e a ha) (fun a ha => by rw [l4 a ha]; exact hw₂e a ha))
  have hd : |‖xy.coord (onSegment (w₁, w₂) t) - xy.coord aa.pCenter‖ - aa.radius| ≤ x.precision := by
    have he := D.pos
    rw [abs_le]
    cases am <;> simp only at hexact <;> constructor <;> linarith [hexact.1, hexact.2]
  have htri := abs_norm_sub_norm_le (xy.coord (onSegment (u₁, u₂) t) - xy.coord aa.pCenter)
    (xy.coord (onSegment (w₁, w₂) t) - xy.coord aa.pCenter)
  rw [sub_sub_sub_cancel_right] at htri
  have htri := htri.trans hclose
  push_cast at htri
  rw [abs_le] at htri hd ⊢
  constructor <;> linarith [htri.1, htri.2, hd.1, hd.2]

end Pygcode
