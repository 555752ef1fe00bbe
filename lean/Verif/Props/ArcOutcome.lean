import Verif.Props.NormArc
import Verif.Props.NormOutcome
import Verif.Props.ArcAccept

/-!
# Which programs `--arc_linearize` gets through

C62 says for the XY plane which arcs can be linearized.  Here for all planes and methods, full circles
included, and then for whole programs with both kinds of expansion.
-/

namespace Pygcode
open Props Machine Spec Pl

/-! ## What to expect, in the coordinates of the plane -/

/-- The centre that an arc from `S` to `E` is taken to have: with R the one of the two centres with this
radius that the direction and the sign of R ask for, without R the one next to the given centre `C` of
the two whose radius is the mean of the distances of both ends to `C`. -/
noncomputable def takenCentre (g : GCode) (S E C : ℂ) : ℂ :=
  open Classical in
  match g.num? 'R' with
  | some r => if (g.cls.isSub .arcMoveCW = true ↔ r < 0) then leftCenter S E |(r : ℝ)| else rightCenter S E |(r : ℝ)|
  | none =>
    let r := (‖S - C‖ + ‖E - C‖) / 2
    if ‖leftCenter S E r - C‖ < ‖rightCenter S E r - C‖ then leftCenter S E r else rightCenter S E r

/-- The program notices that the arc has an angle: always in the XY plane; in the other planes, where it
looks at Z only, if both ends are on different sides of the centre (`S`, `E`, `c` are (z, x) in the ZX
plane and (y, z) in the YZ plane; Z of the centre counts as a side of its own in the ZX plane and
as above it in the YZ plane). -/
def SeesAngle (p : Pl) (S E c : ℂ) : Prop :=
  match p with
  | xy => True
  | zx => SignType.sign (S.re - c.re) ≠ SignType.sign (E.re - c.re)
  | yz => ¬ (S.im < c.im ↔ E.im < c.im)

/-- An arc of given ends and centre that can be linearized: its ends are not the same, unless the lines
are to be inside of the circle and it is a circle; its angle is noticed, unless the lines are to be
inside; and R is large enough and the ends apart enough. -/
def Curves (p : Pl) (g : GCode) (S E C : ℂ) (inside : Prop) (e : ℝ) : Prop :=
  (∀ r : ℚ, g.num? 'R' = some r → e ≤ ‖S - E‖ ∧ ‖S - E‖ ≤ 2 * |(r : ℝ)|) ∧
    (S = E → inside ∧ C ≠ S) ∧ (S ≠ E → inside ∨ SeesAngle p S E (takenCentre g S E C))

/-! ## The angle -/

theorem fmod_small {x m : ℝ} (h : |x| < m) : fmod x m = 0 ↔ x = 0 := by
  have hm : 0 < m := lt_of_le_of_lt (_root_.abs_nonneg x) h
  constructor
  · intro h0
    unfold fmod at h0
    have hx : x = m * ⌊x / m⌋ := by linarith
    have h1 : |((⌊x / m⌋ : ℤ) : ℝ)| < 1 := by
      rw [hx, abs_mul, abs_of_pos hm] at h
      by_contra hc
      push Not at hc
      have := mul_le_mul_of_nonneg_left hc hm.le
      linarith
    have h2 : ⌊x / m⌋ = 0 := by
      have : |⌊x / m⌋| < 1 := by exact_mod_cast h1
      exact Int.abs_lt_one_iff.1 this
    rw [hx, h2]; simp
  · rintro rfl
    exact fmod_zero m

theorem atan2_gap (a b c d : ℝ) : |atan2 a b - atan2 c d| < 2 * Real.pi := by
  unfold atan2
  have h1 := Complex.neg_pi_lt_arg (⟨b, a⟩ : ℂ)
  have h2 := Complex.arg_le_pi (⟨b, a⟩ : ℂ)
  have h3 := Complex.neg_pi_lt_arg (⟨d, c⟩ : ℂ)
  have h4 := Complex.arg_le_pi (⟨d, c⟩ : ℂ)
  rw [abs_lt]
  constructor <;> linarith

/-- The angle is zero exactly when both ends are seen in the same direction. -/
theorem angle_zero {p : Pl} {g : GCode} {s : V3} {q : Quat} {incr arcIncr : Bool} {e : ℝ} {a : Arc}
    (F : ArcFacts p g s q incr arcIncr e a) : a.angle = 0 ↔
      atan2 (q.apply (a.pStart - a.pCenter)).y (q.apply (a.pStart - a.pCenter)).x =
        atan2 (q.apply (a.pEnd - a.pCenter)).y (q.apply (a.pEnd - a.pCenter)).x := by
  rw [F.angle]
  split_ifs
  · rw [fmod_small (atan2_gap _ _ _ _), sub_eq_zero]
  · rw [neg_eq_zero, fmod_small (atan2_gap _ _ _ _), sub_eq_zero, eq_comm]

theorem arg_updown (a b : ℝ) : Complex.arg ⟨0, a⟩ = Complex.arg ⟨0, b⟩ ↔ SignType.sign a = SignType.sign b := by
  have hv : ∀ z : ℝ, Complex.arg ⟨0, z⟩ = (SignType.sign z : ℝ) * (Real.pi / 2) := by
    intro z
    rcases lt_trichotomy z 0 with hz | hz | hz
    · rw [show (⟨0, z⟩ : ℂ) = ((-z : ℝ) : ℂ) * (-Complex.I) by apply Complex.ext <;> simp,
        Complex.arg_real_mul _ (by linarith), Complex.arg_neg_I, sign_neg hz]
      simp only [SignType.neg_eq_neg_one, SignType.coe_neg, SignType.coe_one]
      ring
    · rw [hz, show (⟨0, 0⟩ : ℂ) = 0 from rfl, Complex.arg_zero]; simp
    · rw [show (⟨0, z⟩ : ℂ) = ((z : ℝ) : ℂ) * Complex.I by apply Complex.ext <;> simp,
        Complex.arg_real_mul _ hz, Complex.arg_I, sign_pos hz]
      simp
  have hpi : Real.pi / 2 ≠ 0 := by positivity
  rw [hv, hv, mul_left_inj' hpi]
  constructor
  · intro h
    revert h
    generalize SignType.sign a = x
    generalize SignType.sign b = y
    cases x <;> cases y <;> simp <;> norm_num
  · intro h; rw [h]

theorem arg_leftright (a b : ℝ) : Complex.arg ⟨a, 0⟩ = Complex.arg ⟨b, 0⟩ ↔ (a < 0 ↔ b < 0) := by
  have hv : ∀ z : ℝ, Complex.arg ⟨z, 0⟩ = if z < 0 then Real.pi else 0 := by
    intro z
    rw [show (⟨z, 0⟩ : ℂ) = ((z : ℝ) : ℂ) from rfl]
    split_ifs with hz
    · exact Complex.arg_ofReal_of_neg hz
    · exact Complex.arg_ofReal_of_nonneg (not_lt.1 hz)
  rw [hv, hv]
  have := Real.pi_ne_zero
  by_cases h1 : a < 0 <;> by_cases h2 : b < 0 <;> simp [h1, h2, this, this.symm]

/-- The centre that is computed. -/
theorem taken {p : Pl} {g : GCode} {s : V3} {q : Quat} {incr arcIncr : Bool} {e : ℝ} {a : Arc}
    (F : ArcFacts p g s q incr arcIncr e a) : p.coord a.pCenter =
      takenCentre g (p.coord s) (p.coord (g.arcEnd s incr)) (p.coord (g.arcCenter s arcIncr)) := by
  unfold takenCentre
  cases hR : g.num? 'R' with
  | some r =>
    simp only
    rw [F.centerR r hR, (F.radiusR r hR).1]
  | none =>
    simp only
    rw [← F.radiusC hR]
    rcases F.centerC hR with ⟨h1, h2⟩ | ⟨h1, h2⟩
    · rw [if_pos h2, h1]
    · rw [if_neg (not_lt.2 h2), h1]

/-- When the angle is noticed. -/
theorem sees_angle {p : Pl} {g : GCode} {s : V3} {q : Quat} (hq : planeQuat p.cls = some q) {incr arcIncr : Bool} {e : ℝ}
    {a : Arc} (h : g.arcOf s p.normal q incr arcIncr e = .ok a) (hne : p.coord s ≠ p.coord (g.arcEnd s incr)) :
    a.angle ≠ 0 ↔ SeesAngle p (p.coord s) (p.coord (g.arcEnd s incr))
      (takenCentre g (p.coord s) (p.coord (g.arcEnd s incr)) (p.coord (g.arcCenter s arcIncr))) := by
  have F := arcOf_ok p g s q incr arcIncr e a h
  rw [← taken F, ← F.cStart, ← F.cEnd]
  cases p with
  | xy =>
    obtain rfl : q = Quat.one := (Option.some.inj hq).symm
    simp only [SeesAngle, iff_true]
    exact angle_ne xy a (sweeps_xy g s incr arcIncr e a h) (by rw [F.cStart, F.cEnd]; exact hne)
  | zx =>
    obtain ⟨q', hq', hap⟩ := quat_zx
    obtain rfl : q = q' := by rw [hq] at hq'; exact Option.some.inj hq'
    have h1 : (a.pStart - a.pCenter).y = 0 := by
      show zx.height _ = 0; rw [height_sub, F.hpStart, F.hpCenter, sub_zero]
    have h2 : (a.pEnd - a.pCenter).y = 0 := by
      show zx.height _ = 0; rw [height_sub, F.hpEnd, F.hpCenter, sub_zero]
    simp only [SeesAngle, ne_eq, not_iff_not]
    rw [angle_zero F, hap, hap]
    simp only [h1, h2]
    unfold atan2
    rw [arg_updown]
    rfl
  | yz =>
    obtain ⟨q', hq', hap⟩ := quat_yz
    obtain rfl : q = q' := by rw [hq] at hq'; exact Option.some.inj hq'
    have h1 : (a.pStart - a.pCenter).x = 0 := by
      show yz.height _ = 0; rw [height_sub, F.hpStart, F.hpCenter, sub_zero]
    have h2 : (a.pEnd - a.pCenter).x = 0 := by
      show yz.height _ = 0; rw [height_sub, F.hpEnd, F.hpCenter, sub_zero]
    simp only [SeesAngle, ne_eq, not_iff_not]
    rw [angle_zero F, hap, hap]
    simp only [h1, h2]
    unfold atan2
    rw [arg_leftright]
    show ((a.pStart - a.pCenter).z < 0 ↔ (a.pEnd - a.pCenter).z < 0) ↔ (a.pStart.z < a.pCenter.z ↔ a.pEnd.z < a.pCenter.z)
    rw [show (a.pStart - a.pCenter).z = a.pStart.z - a.pCenter.z from rfl,
      show (a.pEnd - a.pCenter).z = a.pEnd.z - a.pCenter.z from rfl, sub_neg, sub_neg]

/-! ## One arc -/

/-- Exactly which calls finish, for every plane, method and arc. -/
theorem C101_arc (g : GCode) (start : Position) (pl : Cls) (m : ArcMethod) (incr arcIncr : Bool) (e : ℝ) (d : ℤ) (s : V3)
    (hs : start.vector = s) :
    (∃ vs, linearizeArc g start (some pl) (some m) incr arcIncr e d = (vs, .done)) ↔
      g.cls.isSub .arcMove = true ∧ 0 < e ∧ g.assertArcParams = .ok () ∧ ∃ p : Pl, pl = p.cls ∧
        Curves p g (p.coord s) (p.coord (g.arcEnd s incr)) (p.coord (g.arcCenter s arcIncr)) (m = .inside) e := by
  constructor
  · rintro ⟨vs, h⟩
    obtain ⟨p, m', s', q, a, ls, D, -⟩ := linearize_done h
    obtain rfl : m = m' := Option.some.inj D.method
    obtain rfl : s = s' := by exact hs.symm.trans D.start
    obtain rfl : pl = p.cls := D.plane
    obtain ⟨k1, k2⟩ := (C62_reach p g s q incr arcIncr e).1 ⟨a, D.ok⟩
    have F := arcOf_ok p g s q incr arcIncr e a D.ok
    have he' : 0 < a.maxError := by rw [F.maxError]; exact D.pos
    refine ⟨D.arc, D.pos, k1, p, rfl, k2, fun hsame => ?_, fun hne => ?_⟩
    · have hR : g.num? 'R' = none := by
        cases hR : g.num? 'R' with
        | none => rfl
        | some r =>
          have := (k2 r hR).1
          rw [hsame, sub_self, norm_zero] at this
          exact absurd D.pos (not_lt.2 this)
      have := C59_refuted p g start m incr arcIncr e d s hs D.arc D.pos k1 hR hsame
      rw [h] at this
      split_ifs at this with hc
      · exact hc
      · exact hc
      · cases this
    · by_contra hcon
      push Not at hcon
      obtain ⟨c1, c2⟩ := hcon
      rw [← sees_angle D.quat D.ok hne, not_not] at c2
      have hz := zero_angle a he' (C56_center p g s q incr arcIncr e a D.ok hne).1 c2 m
      rw [D.verts] at hz
      cases m with
      | inside => exact c1 rfl
      | outside => cases hz
      | mid => cases hz
  · rintro ⟨h1, h2, h3, p, rfl, h4, h5, h6⟩
    by_cases hsame : p.coord s = p.coord (g.arcEnd s incr)
    · have hR : g.num? 'R' = none := by
        cases hR : g.num? 'R' with
        | none => rfl
        | some r =>
          have := (h4 r hR).1
          rw [hsame, sub_self, norm_zero] at this
          exact absurd h2 (not_lt.2 this)
      rw [C59_refuted p g start m incr arcIncr e d s hs h1 h2 h3 hR hsame, if_pos (h5 hsame)]
      exact ⟨_, rfl⟩
    · obtain ⟨q, hq⟩ := planeQuat_cls p
      obtain ⟨a, ha⟩ := (C62_reach p g s q incr arcIncr e).2 ⟨h3, h4⟩
      have F := arcOf_ok p g s q incr arcIncr e a ha
      have he' : 0 < a.maxError := by rw [F.maxError]; exact h2
      have hr := (C56_center p g s q incr arcIncr e a ha hsame).1
      by_cases hang : a.angle = 0
      · have hin : m = .inside := by
          rcases h6 hsame with h | h
          · exact h
          · exact absurd hang ((sees_angle hq ha hsame).2 h)
        subst hin
        exact ⟨_, done_linearize d ⟨rfl, rfl, hs, h1, h2, hq, ha, zero_angle a he' hr hang .inside⟩⟩
      · obtain ⟨ls, -, -, -, hl, -⟩ := C55_chain p g s q incr arcIncr e a ha hr h2 hang m
        exact ⟨_, done_linearize d ⟨rfl, rfl, hs, h1, h2, hq, ha, hl⟩⟩

/-! ## Programs -/

/-- Where the machine stands, the arc can be replaced by lines: the precision is positive, an axis
is given, either I, J, K or an R other than 0, the plane is one of the three, and the arc from where
the machine is can be linearized. -/
def Curvable (x : ArcOpts) (m : Machine) (g : GCode) : Prop :=
  0 < x.precision ∧ (∃ l ∈ ['X', 'Y', 'Z'], (g.num? l).isSome) ∧
    Xor (∃ l ∈ ['I', 'J', 'K'], (g.num? l).isSome) (∃ r, g.num? 'R' = some r ∧ r ≠ 0) ∧ g.num? 'R' ≠ some 0 ∧
    ∃ p : Pl, planeOf m = p.cls ∧ ∃ start, m.pos = .ok start ∧
      Curves p g (p.coord start.vector) (p.coord (g.arcEnd start.vector m.incremental))
        (p.coord (g.arcCenter start.vector (arcIncremental m))) (x.method g.word = .ok .inside) x.precision

/-- If there is an arc among the gcodes in effect on the line and arcs are to be linearized, the first
can be, where it is reached; if there is none, and one of the gcodes is to be expanded, then there is a
cycle and the first can be replaced where it is reached. -/
def LineReplaceable (o : NormOpts) (x : ArcOpts) (m : Machine) (t : List Char) : Prop :=
  ∀ l b gs, Line.ofText t = .ok l → blockDone o m l.block = .ok b → m.blockModalGcodes b = .ok gs →
    ((x.on = true ∧ ∃ g ∈ gs, g.cls.isSub .arcMove = true) → ∃ before g after, gs = before ++ g :: after ∧
      (∀ y ∈ before, y.cls.isSub .arcMove = false) ∧ g.cls.isSub .arcMove = true ∧
      Curvable x (m.processAll before).1 g) ∧
    (¬ (x.on = true ∧ ∃ g ∈ gs, g.cls.isSub .arcMove = true) → o.cannedExpand = true → LineDrills o m t)

/-- All lines, as they are reached. -/
def LinesReplaceable (o : NormOpts) (x : ArcOpts) (m : Machine) : List (List Char) → Prop
  | [] => True
  | t :: ts => LineReplaceable o x m t ∧ LinesReplaceable o x (lineEffect o m t).1 ts

/-- A gcode named by its word that is an arc is G2 or G3. -/
theorem arc_method (x : ArcOpts) {g : GCode} (hn : wordClass g.word = some g.cls) (hg : g.cls.isSub .arcMove = true) :
    ∃ am, x.method g.word = .ok am := by
  have ht := Cls.forall_of_all (p := fun c => !c.isSub .arcMove ||
    (match c.wordKey, c.matcher with
      | some k, _ => decide (k = ('G', 2) ∨ k = ('G', 3))
      | none, none => true
      | none, some _ => false)) (by decide +kernel) g.cls
  rw [hg] at ht
  obtain ⟨-, ⟨l, q, hk, he⟩ | ⟨hk, f, hf, -⟩⟩ := (C15_lookup false g.word g.cls).1 hn
  · rw [hk] at ht
    simp only [Bool.not_true, Bool.false_or, decide_eq_true_eq, Prod.mk.injEq] at ht
    rw [he]
    unfold ArcOpts.method
    rcases ht with ⟨rfl, rfl⟩ | ⟨rfl, rfl⟩
    · exact ⟨_, if_pos rfl⟩
    · exact ⟨_, by rw [if_neg (by decide), if_pos rfl]⟩
  · rw [hk, hf] at ht
    simp at ht

theorem putArc_end (o : NormOpts) (x : ArcOpts) (fl : Floats) {m : Machine} (hm : Sound m) {g : GCode}
    (hn : wordClass g.word = some g.cls) (hg : g.cls.isSub .arcMove = true) :
    (o.putArc x fl m g).m = m ∧ ((o.putArc x fl m g).status = .done ↔ Curvable x m g) := by
  obtain ⟨p, hp, -, -⟩ := sound_pos hm
  obtain ⟨am, ham⟩ := arc_method x hn hg
  have hst : (o.putArc x fl m g).m = m ∧ (o.putArc x fl m g).status =
      (linearizeArc g p (m.mode.plane.map GCode.cls) (some am) m.incremental (arcIncremental m) x.precision 3).2 := by
    unfold NormOpts.putArc
    rw [hp]
    simp only [ham]
    rw [putAll_eq]
    refine ⟨rfl, ?_⟩
    unfold NormOpts.arcMoves
    refine omitGen_status o (r := (_, _)) ?_
    intro c hc
    simp only [List.mem_map] at hc
    obtain ⟨v, -, rfl⟩ := hc
    exact ⟨linear_gok v, linear_named v, .inr rfl, rfl⟩
  refine ⟨hst.1, ?_⟩
  rw [hst.2]
  have hpl : linearizeArc g p (m.mode.plane.map GCode.cls) (some am) m.incremental (arcIncremental m) x.precision 3 =
      linearizeArc g p (some (planeOf m)) (some am) m.incremental (arcIncremental m) x.precision 3 := by
    unfold linearizeArc planeOf
    cases m.mode.plane <;> rfl
  rw [hpl]
  have key := C101_arc g p (planeOf m) am m.incremental (arcIncremental m) x.precision 3 p.vector rfl
  have hd : ∀ r : List V3 × Status, r.2 = .done ↔ ∃ vs, r = (vs, .done) :=
    fun r => ⟨fun h => ⟨r.1, Prod.ext rfl h⟩, fun ⟨vs, h⟩ => by rw [h]⟩
  rw [hd, key]
  unfold Curvable
  rw [C62_params, ham]
  simp only [Except.ok.injEq]
  constructor
  · rintro ⟨-, h1, ⟨h2, h3, h4⟩, q, h5, h6⟩
    exact ⟨h1, h2, h3, h4, q, h5, p, hp, h6⟩
  · rintro ⟨h1, h2, h3, h4, q, h5, p', hp', h6⟩
    rw [hp] at hp'
    cases hp'
    exact ⟨hg, h1, ⟨h2, h3, h4⟩, q, h5, h6⟩

/-- A line with an arc. -/
theorem arcLine_end (o : NormOpts) (x : ArcOpts) (fl : Floats) {m : Machine} (hm : Sound m) {gs : List GCode}
    (hn : ∀ g ∈ gs, wordClass g.word = some g.cls) (hok : ∀ g ∈ gs, GOK g) (hs : execSort gs = gs)
    (ha : ∃ g ∈ gs, g.cls.isSub .arcMove = true) (c : Option Comment) :
    ((o.arcLine x fl m gs c).status = .done ↔ (m.processAll gs).2 = none ∧
      ∃ before g after, gs = before ++ g :: after ∧ (∀ y ∈ before, y.cls.isSub .arcMove = false) ∧
        g.cls.isSub .arcMove = true ∧ Curvable x (m.processAll before).1 g) ∧
    ((o.arcLine x fl m gs c).status = .done → (o.arcLine x fl m gs c).m = (m.processAll gs).1) := by
  have hso : gs.Pairwise (fun a b => a.cls.order ≤ b.cls.order) := by
    have := (execSort_stable gs).2.1
    rw [hs] at this
    exact this
  rcases split_first (c := .arcMove) hs with ⟨before, g, after, e, hb, hg, hsp⟩ | ⟨h0, -⟩
  swap
  · obtain ⟨g, h1, h2⟩ := ha
    rw [h0 g h1] at h2; cases h2
  have hmb : ∀ x ∈ before, x ∈ gs := fun x hx => by rw [e]; simp [hx]
  have hmg : g ∈ gs := by rw [e]; simp
  have sb : execSort before = before := execSort_of_pairwise (hso.sublist (by rw [e]; exact List.sublist_append_left _ _))
  have sa : execSort after = after := execSort_of_pairwise (hso.sublist (by
    rw [e]; exact (List.sublist_cons_self g after).trans (List.sublist_append_right _ _)))
  have hm1 : Sound (m.processAll before).1 := Sound.all (fun x hx => hok x (hmb x hx)) (fun x hx => hn x (hmb x hx)) hm
  have hiff : (∃ before g after, gs = before ++ g :: after ∧ (∀ x ∈ before, x.cls.isSub .arcMove = false) ∧
      g.cls.isSub .arcMove = true ∧ Curvable x (m.processAll before).1 g) ↔ Curvable x (m.processAll before).1 g := by
    constructor
    · rintro ⟨before', g', after', e', h1, h2, h3⟩
      obtain ⟨rfl, rfl, -⟩ := first_unique (q := fun x => x.cls.isSub .arcMove) (e ▸ e') hb hg h1 h2
      exact h3
    · exact fun h => ⟨before, g, after, e, hb, hg, h⟩
  have hall : m.processAll gs = Machine.andThen (m.processAll before) (fun m => m.processAll (g :: after)) := by
    rw [e, processAll_append]
  have htail : ∀ m1 : Machine, Tracks ((fun m1 : Machine => (NormRes.ofM (m1.processGcodes [g] [])).andThen fun m =>
      (o.putProcess m after).andThen fun m => if c = none then ⟨[], m, .done⟩ else NormRes.put m (o.write [] [] c)) m1)
      (m1.processAll (g :: after)) := by
    intro m1
    have k1 : Tracks (NormRes.ofM (m1.processGcodes [g] [])) (m1.process g) := by
      rw [processGcodes_single]
      exact Tracks.ofM _
    have k2 := k1.andThen (F := fun m => Machine.andThen (m.processAll after) (fun m => (m, none)))
      (f := fun m => (o.putProcess m after).andThen fun m =>
        if c = none then ⟨[], m, .done⟩ else NormRes.put m (o.write [] [] c))
      (fun m => (putProcess_tracks o m sa).andThen (fun m => by
        split_ifs
        · exact Tracks.nil m
        · exact Tracks.put (write_ok o _ _ (fun _ => rfl) _ _)))
    have : Machine.andThen (m1.process g) (fun m => Machine.andThen (m.processAll after) (fun m => (m, none))) =
        m1.processAll (g :: after) := by
      rw [processAll]
      congr 1
      funext m''
      rcases m''.processAll after with ⟨_, _ | _⟩ <;> rfl
    rwa [this] at k2
  obtain ⟨ls, hls⟩ := write_ok o [] [] (fun _ => rfl)
    (some (.brackets ("linearized arc: ".toList ++ NormOpts.reprText g))) none
  have hexp : o.arcLine x fl m gs c = (o.putProcess m before).andThen fun m =>
      (NormRes.put m (o.write [] [] (some (.brackets ("linearized arc: ".toList ++ NormOpts.reprText g))))).andThen fun m =>
      (o.putArc x fl m g).andThen (fun m : Machine => (NormRes.ofM (m.processGcodes [g] [])).andThen fun m =>
      (o.putProcess m after).andThen fun m => if c = none then ⟨[], m, .done⟩ else NormRes.put m (o.write [] [] c)) := by
    unfold NormOpts.arcLine
    rw [hsp]
  generalize (fun m : Machine => (NormRes.ofM (m.processGcodes [g] [])).andThen fun m =>
    (o.putProcess m after).andThen fun m => if c = none then ⟨[], m, .done⟩ else NormRes.put m (o.write [] [] c)) = T
    at hexp htail
  have hpe := putArc_end o x fl hm1 (hn g hmg) hg
  have hfirst := putProcess_tracks o m sb
  rw [hiff, hall, hexp]
  generalize o.putProcess m before = r at hfirst
  generalize m.processAll before = y at hfirst hm1 hpe
  obtain ⟨out, m1, s⟩ := r
  obtain ⟨m2, _ | er⟩ := y
  swap
  · obtain ⟨k1, k2⟩ := hfirst
    simp only [endsAs] at k1 k2
    subst k1 k2
    exact ⟨⟨fun h => (by cases h), fun h => (by cases h.1)⟩, fun h => (by cases h)⟩
  obtain ⟨k1, k2⟩ := hfirst
  simp only [endsAs] at k1 k2
  subst k1 k2
  simp only [NormRes.andThen, NormRes.put, hls, Machine.andThen]
  simp only at hpe
  obtain ⟨t1, t2⟩ := htail m1
  obtain ⟨p1, p2⟩ := hpe
  generalize o.putArc x fl m1 g = q at p1 p2
  obtain ⟨qo, qm, qs⟩ := q
  simp only at p1 p2
  subst p1
  rw [← p2]
  cases qs with
  | done =>
    simp only [and_true]
    rw [t2, t1]
    cases (qm.processAll (g :: after)).2 with
    | none => exact ⟨⟨fun _ => rfl, fun _ => rfl⟩, fun _ => rfl⟩
    | some e => exact ⟨⟨fun h => (by cases h), fun h => (by cases h)⟩, fun h => (by cases h)⟩
  | raised e => simp
  | running => simp

/-- The line that is executed, with both kinds of expansion. -/
theorem lineA_cases (o : NormOpts) (x : ArcOpts) (fl : Floats) (m : Machine)
    (hn : o.rmInvalid = true → ModeAll Named m.mode) (t : List Char) :
    (∃ e, (∀ fuel, o.lineA x fl fuel m t = ⟨[], m, .raised e⟩) ∧ lineEffect o m t = (m, some e)) ∨
    ∃ l b gs, Line.ofText t = .ok l ∧ blockDone o m l.block = .ok b ∧ m.blockModalGcodes b = .ok gs ∧
      lineEffect o m t = m.processBlock b ∧
      ∀ fuel, o.lineA x fl fuel m t =
        if x.on && gs.any (fun g => g.cls.isSub .arcMove) then o.arcLine x fl m gs l.comment else o.line fuel m t := by
  unfold NormOpts.lineA NormOpts.line lineEffect
  cases hl : Line.ofText t with
  | error e => exact .inl ⟨e, fun _ => rfl, rfl⟩
  | ok l =>
    simp only
    have hc : (if o.rmInvalid = true then (m.cleanBlock l.block).map (fun b => { l with block := b }) else .ok l) =
        (blockDone o m l.block).map (fun b => { l with block := b }) := by
      by_cases hi : o.rmInvalid = true
      · rw [if_pos hi, cleanBlock_done hi (hn hi) (line_block_ok hl).unused]
      · rw [if_neg hi]; unfold blockDone; rw [if_neg hi]; rfl
    rw [hc]
    cases hb : blockDone o m l.block with
    | error e => exact .inl ⟨e, fun _ => rfl, rfl⟩
    | ok b =>
      simp only [Except.map]
      cases hg : m.blockModalGcodes b with
      | error e => exact .inl ⟨e, fun _ => rfl, processBlock_error hg⟩
      | ok gs => exact .inr ⟨l, b, gs, rfl, hb, hg, rfl, fun _ => rfl⟩

theorem lineA_end (o : NormOpts) (x : ArcOpts) (fl : Floats) {m : Machine} (hm : Sound m) (hax : xyz ⊆ m.axes)
    (t : List Char) :
    (∀ fuel, (o.lineA x fl fuel m t).status = .done →
      lineEffect o m t = ((o.lineA x fl fuel m t).m, none) ∧ LineReplaceable o x m t) ∧
    (∀ m', lineEffect o m t = (m', none) → LineReplaceable o x m t →
      ∃ N out, ∀ fuel, N ≤ fuel → o.lineA x fl fuel m t = ⟨out, m', .done⟩) := by
  rcases lineA_cases o x fl m (fun _ => hm.named) t with ⟨e, hline, h⟩ | ⟨l, b, gs, hl, hb, hgs, h, hline⟩
  · exact ⟨fun fuel hd => (by rw [hline] at hd; cases hd), fun m' h' => (by rw [h] at h'; cases h')⟩
  obtain ⟨e1, e2, -, -, e5, e6⟩ := effective_done hl hb hm hgs
  have huse : ((x.on = true ∧ ∃ g ∈ gs, g.cls.isSub .arcMove = true) → ∃ before g after, gs = before ++ g :: after ∧
      (∀ y ∈ before, y.cls.isSub .arcMove = false) ∧ g.cls.isSub .arcMove = true ∧
      Curvable x (m.processAll before).1 g) →
      (¬ (x.on = true ∧ ∃ g ∈ gs, g.cls.isSub .arcMove = true) → o.cannedExpand = true → LineDrills o m t) →
      LineReplaceable o x m t := by
    intro k1 k2 l' b' gs' hl' hb' hgs'
    rw [hl] at hl'; cases hl'
    rw [hb] at hb'; cases hb'
    rw [hgs] at hgs'; cases hgs'
    exact ⟨k1, k2⟩
  by_cases hc : x.on = true ∧ ∃ g ∈ gs, g.cls.isSub .arcMove = true
  · have hln : ∀ fuel, o.lineA x fl fuel m t = o.arcLine x fl m gs l.comment := by
      intro fuel
      rw [hline, if_pos]
      rw [hc.1, Bool.true_and, List.any_eq_true]
      exact hc.2
    simp only [hln]
    obtain ⟨k1, k2⟩ := arcLine_end o x fl hm e1 e2 e5 hc.2 l.comment
    rw [h, e6]
    constructor
    · intro _ hd
      obtain ⟨k3, k4⟩ := k1.1 hd
      exact ⟨Prod.ext (k2 hd).symm k3, huse (fun _ => k4) (fun hn => absurd hc hn)⟩
    · intro m' h1 h2
      have hd := k1.2 ⟨by rw [h1], (h2 l b gs hl hb hgs).1 hc⟩
      refine ⟨0, (o.arcLine x fl m gs l.comment).out, fun _ _ => ?_⟩
      have k3 := k2 hd
      rw [h1] at k3
      generalize o.arcLine x fl m gs l.comment = r at hd k3
      obtain ⟨ro, rm, rs⟩ := r
      simp only at hd k3
      subst hd k3
      rfl
  · have hln : ∀ fuel, o.lineA x fl fuel m t = o.line fuel m t := by
      intro fuel
      rw [hline, if_neg]
      rw [Bool.and_eq_true, List.any_eq_true]
      exact hc
    simp only [hln]
    by_cases he : o.cannedExpand = true
    · obtain ⟨k1, k2⟩ := line_end o he hm hax t
      exact ⟨fun fuel hd => ⟨(k1 fuel hd).1, huse (fun h => absurd h hc) (fun _ _ => (k1 fuel hd).2)⟩,
        fun m' h1 h2 => k2 m' h1 ((h2 l b gs hl hb hgs).2 hc he)⟩
    · have k : ∀ fuel, Tracks (o.line fuel m t) (lineEffect o m t) := by
        intro fuel
        rcases line_cases o m (fun _ => hm.named) t with ⟨e, h1, h2⟩ | ⟨l, b, gs, -, -, -, h1, h2⟩
        · rw [h1, h2]; exact ⟨rfl, rfl⟩
        · rw [h1, h2, if_neg (by simp [he])]
          exact plainLine_tracks o m { l with block := b } gs
      have hfu : ∀ fuel, o.line fuel m t = o.line 0 m t := by
        intro fuel
        rcases line_cases o m (fun _ => hm.named) t with ⟨e, h1, h2⟩ | ⟨l, b, gs, -, -, -, h1, h2⟩
        · rw [h1, h1]
        · simp only [h2]
          rw [if_neg (by simp [he]), if_neg (by simp [he])]
      constructor
      · intro fuel hd
        obtain ⟨k1, k2⟩ := k fuel
        rw [hd] at k2
        refine ⟨Prod.ext k1.symm ?_, huse (fun h => absurd h hc) (fun _ h => absurd h he)⟩
        cases hx : (lineEffect o m t).2 with
        | none => rfl
        | some e => rw [hx] at k2; cases k2
      · intro m' h1 _
        refine ⟨0, (o.line 0 m t).out, fun fuel _ => ?_⟩
        rw [hfu]
        obtain ⟨k1, k2⟩ := k 0
        rw [h1] at k1 k2
        generalize o.line 0 m t = r at k1 k2
        obtain ⟨ro, rm, rs⟩ := r
        simp only [endsAs] at k1 k2
        subst k1 k2
        rfl

/-- With all options: the script gets to the end of a program exactly when executing the lines does and
everything that is to be replaced can be where it is reached; its machine is then in the state the
execution leaves, whatever is computed for the vertices. -/
theorem C101_loop (o : NormOpts) (x : ArcOpts) (fl : Floats) (m : Machine) (hm : Sound m) (hax : xyz ⊆ m.axes)
    (ts : List (List Char)) :
    (∀ fuel, (o.loopA x fl fuel m ts).status = .done →
      linesEffect o m ts = ((o.loopA x fl fuel m ts).m, none) ∧ LinesReplaceable o x m ts) ∧
    (∀ m', linesEffect o m ts = (m', none) → LinesReplaceable o x m ts →
      ∃ N out, ∀ fuel, N ≤ fuel → o.loopA x fl fuel m ts = ⟨out, m', .done⟩) := by
  induction ts generalizing m with
  | nil => exact ⟨fun fuel _ => ⟨rfl, trivial⟩, fun m' h _ => ⟨0, [], fun fuel _ => by cases h; rfl⟩⟩
  | cons t ts ih =>
    obtain ⟨k1, k2⟩ := lineA_end o x fl hm hax t
    have hm1 := sound_line o hm t
    have hax1 : xyz ⊆ (lineEffect o m t).1.axes := by rw [axes_line o hm t]; exact hax
    constructor
    · intro fuel hd
      unfold NormOpts.loopA at hd ⊢
      have k1' := k1 fuel
      generalize o.lineA x fl fuel m t = r at hd k1'
      obtain ⟨out, m1, s⟩ := r
      cases s with
      | done =>
        obtain ⟨h1, h2⟩ := k1' rfl
        rw [h1] at hm1 hax1
        obtain ⟨h3, h4⟩ := (ih m1 hm1 hax1).1 fuel hd
        refine ⟨?_, h2, ?_⟩
        · unfold linesEffect
          rw [h1]
          exact h3
        · rw [h1]; exact h4
      | raised e => cases hd
      | running => cases hd
    · intro m' h1 h2
      unfold linesEffect at h1
      obtain ⟨h3, h4⟩ := h2
      generalize hx : lineEffect o m t = y at h1 h4 hm1 hax1
      obtain ⟨m1, _ | e⟩ := y
      · obtain ⟨N₁, out₁, k3⟩ := k2 m1 hx h3
        obtain ⟨N₂, out₂, k4⟩ := (ih m1 hm1 hax1).2 m' h1 h4
        refine ⟨max N₁ N₂, out₁ ++ out₂, fun fuel hf => ?_⟩
        unfold NormOpts.loopA
        rw [k3 fuel (le_trans (le_max_left _ _) hf)]
        simp only [NormRes.andThen]
        rw [k4 fuel (le_trans (le_max_right _ _) hf)]
      · cases h1

/-- The finalizing lines never change how the script ends, nor the state of the machine. -/
theorem C101_run (o : NormOpts) (x : ArcOpts) (fl : Floats) (fuel : ℕ) (md : Mode) (hm : Sound (o.machine md))
    (ts : List (List Char)) :
    (o.runA x fl fuel md ts).status = (o.loopA x fl fuel (o.machine md) ts).status ∧
      (o.runA x fl fuel md ts).m = (o.loopA x fl fuel (o.machine md) ts).m := by
  have hend : (o.loopA x fl fuel (o.machine md) ts).status = .done →
      Sound (o.loopA x fl fuel (o.machine md) ts).m ∧ (o.loopA x fl fuel (o.machine md) ts).m.axes = xyz := by
    intro hd
    have hl := sound_lines o ts hm
    rw [((C101_loop o x fl _ hm (Finset.Subset.refl _) ts).1 fuel hd).1] at hl
    exact hl
  unfold NormOpts.runA
  generalize o.loopA x fl fuel (o.machine md) ts = r at hend
  obtain ⟨out, m1, s⟩ := r
  cases s with
  | done =>
    obtain ⟨h1, h2⟩ := hend rfl
    simp only at h2
    obtain ⟨h3, h4⟩ := finish_tracks o h1 (by rw [h2])
    exact ⟨h4, h3⟩
  | raised e => exact ⟨rfl, rfl⟩
  | running => exact ⟨rfl, rfl⟩

/-! ## Arcs that are executed but not linearized -/

/-- A consistent centre is taken as given. -/
theorem taken_given {g : GCode} {S E C : ℂ} (hR : g.num? 'R' = none) (hne : S ≠ E) (hc : ‖S - C‖ = ‖E - C‖) :
    takenCentre g S E C = C := by
  unfold takenCentre
  rw [hR]
  simp only
  have hr : (‖S - C‖ + ‖E - C‖) / 2 = ‖S - C‖ := by rw [← hc]; ring
  rw [hr]
  split_ifs with h
  · rcases two_centers hne rfl hc.symm with h1 | h1
    · exact h1.symm
    · rw [← h1, sub_self, norm_zero] at h
      exact absurd h (not_lt.2 (norm_nonneg _))
  · push Not at h
    rcases two_centers hne rfl hc.symm with h1 | h1
    · rw [← h1, sub_self, norm_zero] at h
      exact sub_eq_zero.1 (norm_le_zero_iff.1 h)
    · exact h1.symm

/-- The arc of a line, with the machine as it is where the arc is reached. -/
def firstArc (o : NormOpts) (m : Machine) (t : List Char) : Option (Machine × GCode) :=
  match Line.ofText t with
  | .error _ => none
  | .ok l =>
    match blockDone o m l.block with
    | .error _ => none
    | .ok b =>
      match m.blockModalGcodes b with
      | .error _ => none
      | .ok gs =>
        match gs.dropWhile (fun g => !g.cls.isSub .arcMove) with
        | [] => none
        | g :: _ => some ((m.processAll (gs.takeWhile (fun g => !g.cls.isSub .arcMove))).1, g)

theorem firstArc_curves {o : NormOpts} {x : ArcOpts} (hon : x.on = true) {m : Machine} {t : List Char}
    {P : Machine → GCode → Bool} (h : (firstArc o m t).any (fun y => P y.1 y.2) = true) :
    ∃ m₁ g, P m₁ g = true ∧ (LineReplaceable o x m t ↔ Curvable x m₁ g) := by
  unfold firstArc at h
  cases hl : Line.ofText t with
  | error e => rw [hl] at h; cases h
  | ok l =>
    rw [hl] at h
    simp only at h
    cases hb : blockDone o m l.block with
    | error e => rw [hb] at h; cases h
    | ok b =>
      rw [hb] at h
      simp only at h
      cases hgs : m.blockModalGcodes b with
      | error e => rw [hgs] at h; cases h
      | ok gs =>
        rw [hgs] at h
        simp only at h
        cases hd : gs.dropWhile (fun g => !g.cls.isSub .arcMove) with
        | nil => rw [hd] at h; cases h
        | cons g rest =>
          rw [hd] at h
          have he : gs = gs.takeWhile (fun g => !g.cls.isSub .arcMove) ++ g :: rest := by
            rw [← hd, List.takeWhile_append_dropWhile]
          have hbef : ∀ y ∈ gs.takeWhile (fun g => !g.cls.isSub .arcMove), y.cls.isSub .arcMove = false := by
            intro y hy
            simpa using List.mem_takeWhile_imp hy
          have hg : g.cls.isSub .arcMove = true := by
            have := List.head_dropWhile_not (fun g : GCode => !g.cls.isSub .arcMove) (l := gs) (by rw [hd]; simp)
            simp only [hd, List.head_cons, Bool.not_eq_false'] at this
            exact this
          refine ⟨_, g, by simpa using h, ?_, ?_⟩
          · intro hr
            obtain ⟨before, g', after, e', h1, h2, h3⟩ := (hr l b gs hl hb hgs).1 ⟨hon, g, by rw [he]; simp, hg⟩
            obtain ⟨e1, rfl, -⟩ := first_unique (q := fun x => x.cls.isSub .arcMove) (he ▸ e') hbef hg h1 h2
            rw [e1]; exact h3
          · intro hc l' b' gs' hl' hb' hgs'
            rw [hl] at hl'; cases hl'
            rw [hb] at hb'; cases hb'
            rw [hgs] at hgs'; cases hgs'
            exact ⟨fun _ => ⟨_, g, rest, he, hbef, hg, hc⟩, fun hn => absurd ⟨hon, g, by rw [he]; simp, hg⟩ hn⟩

/-- The machine is at a point, in absolute mode, with a plane, and the gcode is the one given. -/
def standsAt (pl : Cls) (x y z : ℚ) (g : GCode) (m : Machine) (g' : GCode) : Bool :=
  decide (planeOf m = pl ∧ m.incremental = false ∧ arcIncremental m = true ∧ g' = g) &&
    (match m.pos with | .ok p => decide (p.val .X = x ∧ p.val .Y = y ∧ p.val .Z = z) | .error _ => false)

theorem standsAt_facts {pl : Cls} {x y z : ℚ} {g g' : GCode} {m : Machine} (h : standsAt pl x y z g m g' = true) :
    planeOf m = pl ∧ m.incremental = false ∧ arcIncremental m = true ∧ g' = g ∧
      ∀ p, m.pos = .ok p → p.vector = ⟨x, y, z⟩ := by
  unfold standsAt at h
  rw [Bool.and_eq_true, decide_eq_true_eq] at h
  obtain ⟨⟨h1, h2, h3, h4⟩, h5⟩ := h
  refine ⟨h1, h2, h3, h4, fun p hp => ?_⟩
  rw [hp] at h5
  simp only [decide_eq_true_eq] at h5
  unfold Position.vector
  rw [h5.1, h5.2.1, h5.2.2]

/-- `G2 X3 Z-1 K-5` -/
def shallowArc : GCode :=
  ⟨.arcMoveCW, ⟨'G', .num 2⟩, [⟨'X', .num 3⟩, ⟨'Z', .num (-1)⟩, ⟨'K', .num (-5)⟩], false⟩

theorem shallow_end : shallowArc.arcEnd ⟨(0 : ℚ), (0 : ℚ), (0 : ℚ)⟩ false = ⟨3, 0, -1⟩ := by
  simp [GCode.arcEnd, shallowArc, GCode.num?, GCode.param, Word.num]

theorem shallow_center : shallowArc.arcCenter ⟨(0 : ℚ), (0 : ℚ), (0 : ℚ)⟩ true = ⟨0, 0, -5⟩ := by
  simp [GCode.arcCenter, shallowArc, GCode.num?, GCode.param, Word.num, add_mk]

/-- **C101** Full circles, and in the ZX plane arcs on one side of their centre, are executed but never
linearized by the methods other than the inside one, whatever the rest of the options is. -/
theorem C101_refuted :
    ∃ t₁ t₂ : List Char, (readLines newNull [t₁]).2 = none ∧ (readLines newNull [t₂]).2 = none ∧
      ∀ (x : ArcOpts) (fl : Floats) (fuel : ℕ), x.on = true → x.methods.1 ≠ .inside →
        (({} : NormOpts).loopA x fl fuel newNull [t₁]).status ≠ .done ∧
        (({} : NormOpts).loopA x fl fuel newNull [t₂]).status ≠ .done := by
  refine ⟨"G2 X0 I1".toList, "G18 G2 X3 Z-1 K-5".toList, by decide +kernel, by decide +kernel,
    fun x fl fuel hon hx => ⟨fun hd => ?_, fun hd => ?_⟩⟩
  · have hr := ((C101_loop _ x fl newNull (reader_null xyz).sound (Finset.Subset.refl _) _).1 fuel hd).2.1
    obtain ⟨m₁, g, h1, h2⟩ := firstArc_curves (x := x) hon (P := standsAt .selectXYPlane 0 0 0 sampleCircle)
      (o := {}) (m := newNull) (t := "G2 X0 I1".toList) (by decide +kernel)
    obtain ⟨k1, k2, k3, rfl, k5⟩ := standsAt_facts h1
    obtain ⟨-, -, -, -, p, hp, start, hs, -, c1, -⟩ := h2.1 hr
    rw [k5 start hs, k2, k3] at c1
    obtain rfl : p = xy := by
      rw [k1] at hp
      cases p <;> first | rfl | (exact absurd hp (by decide))
    obtain ⟨c2, -⟩ := c1 (by simp [GCode.arcEnd, sampleCircle, GCode.num?, GCode.param, Word.num, Pl.coord])
    exact hx (Except.ok.inj c2)
  · have hr := ((C101_loop _ x fl newNull (reader_null xyz).sound (Finset.Subset.refl _) _).1 fuel hd).2.1
    obtain ⟨m₁, g, h1, h2⟩ := firstArc_curves (x := x) hon (P := standsAt .selectZXPlane 0 0 0 shallowArc)
      (o := {}) (m := newNull) (t := "G18 G2 X3 Z-1 K-5".toList) (by decide +kernel)
    obtain ⟨k1, k2, k3, rfl, k5⟩ := standsAt_facts h1
    obtain ⟨-, -, -, -, p, hp, start, hs, -, -, c1⟩ := h2.1 hr
    rw [k5 start hs, k2, k3, shallow_end, shallow_center] at c1
    obtain rfl : p = zx := by
      rw [k1] at hp
      cases p <;> first | rfl | (exact absurd hp (by decide))
    have hne : zx.coord ⟨((0 : ℚ) : ℝ), ((0 : ℚ) : ℝ), ((0 : ℚ) : ℝ)⟩ ≠ zx.coord ⟨3, 0, -1⟩ := by
      intro h
      have := congrArg Complex.im h
      simp [Pl.coord] at this
    rcases c1 hne with c2 | c2
    · exact hx (Except.ok.inj c2)
    · rw [taken_given (by decide +kernel) hne (by
        simp only [Pl.coord, Complex.norm_def, Complex.normSq_apply, Complex.sub_re, Complex.sub_im]
        norm_num)] at c2
      apply c2
      simp only [Pl.coord]
      rw [sign_pos (by norm_num), sign_pos (by norm_num)]

/-! ## Cases -/

/-- The quarter circle `G3 X0 Y1 I-1` from (1, 0), and the shallow arc with lines inside. -/
example : ∃ vs, linearizeArc sampleArc (at3 1 0 0) (some .selectXYPlane) (some .mid) false true (1 / 100) 3 = (vs, .done) := by
  have hE : sampleArc.arcEnd ⟨(1 : ℚ), (0 : ℚ), (0 : ℚ)⟩ false = ⟨0, 1, 0⟩ := by
    simp [GCode.arcEnd, sampleArc, GCode.num?, GCode.param, Word.num]
  refine (C101_arc _ _ _ _ _ _ _ _ _ (at3_vector 1 0 0)).2 ⟨by decide +kernel, by norm_num, by decide +kernel, xy, rfl,
    fun r hr => by simp [sampleArc, GCode.num?, GCode.param] at hr, fun h => ?_, fun _ => .inr trivial⟩
  rw [hE] at h
  have := congrArg Complex.re h
  simp [Pl.coord] at this

example : ∃ vs, linearizeArc shallowArc (at3 0 0 0) (some .selectZXPlane) (some .inside) false true (1 / 100) 3 = (vs, .done) := by
  refine (C101_arc _ _ _ _ _ _ _ _ _ (at3_vector 0 0 0)).2 ⟨by decide +kernel, by norm_num, by decide +kernel, zx, rfl,
    fun r hr => by simp [shallowArc, GCode.num?, GCode.param] at hr, fun h => ?_, fun _ => .inl rfl⟩
  rw [shallow_end] at h
  have := congrArg Complex.im h
  simp [Pl.coord] at this

/-- A line with nothing to replace. -/
def nothingB (o : NormOpts) (m : Machine) (t : List Char) : Bool :=
  match Line.ofText t with
  | .error _ => false
  | .ok l =>
    match blockDone o m l.block with
    | .error _ => false
    | .ok b =>
      match m.blockModalGcodes b with
      | .error _ => false
      | .ok gs => gs.all (fun g => !g.cls.isSub .arcMove && !decide (g.word ∈ o.cannedCodes))

theorem nothingB_sound {o : NormOpts} (x : ArcOpts) {m : Machine} {t : List Char} (h : nothingB o m t = true) :
    LineReplaceable o x m t := by
  intro l b gs hl hb hgs
  unfold nothingB at h
  rw [hl] at h
  simp only at h
  rw [hb] at h
  simp only at h
  rw [hgs] at h
  simp only [List.all_eq_true, Bool.and_eq_true, Bool.not_eq_true', decide_eq_false_iff_not] at h
  refine ⟨fun ⟨_, g, h1, h2⟩ => ?_, fun _ _ l' b' gs' hl' hb' hgs' ⟨g, h1, h2⟩ => ?_⟩
  · rw [(h g h1).1] at h2; cases h2
  · rw [hl] at hl'; cases hl'
    rw [hb] at hb'; cases hb'
    rw [hgs] at hgs'; cases hgs'
    exact absurd h2 (h g h1).2

/-- A program with an arc gets to its end, whatever is computed for the vertices. -/
example (fl : Floats) : ∃ N, ∀ fuel, N ≤ fuel →
    (({ full := true, cannedExpand := true } : NormOpts).runA ⟨true, (.mid, .outside), 1 / 100⟩ fl fuel Mode.null
      ["G0 X1".toList, "G3 X0 Y1 I-1 F100".toList]).status = .done := by
  have hm : Sound (({ full := true, cannedExpand := true } : NormOpts).machine Mode.null) := (reader_null xyz).sound
  have harc : LineReplaceable { full := true, cannedExpand := true } ⟨true, (.mid, .outside), 1 / 100⟩
      (lineEffect { full := true, cannedExpand := true }
        (({ full := true, cannedExpand := true } : NormOpts).machine Mode.null) "G0 X1".toList).1
      "G3 X0 Y1 I-1 F100".toList := by
    obtain ⟨m₁, g, h1, h2⟩ := firstArc_curves (x := ⟨true, (.mid, .outside), 1 / 100⟩) rfl
      (P := standsAt .selectXYPlane 1 0 0 sampleArc)
      (o := { full := true, cannedExpand := true })
      (m := (lineEffect { full := true, cannedExpand := true }
        (({ full := true, cannedExpand := true } : NormOpts).machine Mode.null) "G0 X1".toList).1)
      (t := "G3 X0 Y1 I-1 F100".toList) (by decide +kernel)
    refine h2.2 ?_
    obtain ⟨k1, k2, k3, rfl, k5⟩ := standsAt_facts h1
    have hpos : ∃ p, m₁.pos = .ok p := by
      unfold standsAt at h1
      cases hp : m₁.pos with
      | ok p => exact ⟨p, rfl⟩
      | error e => rw [hp] at h1; simp at h1
    obtain ⟨p, hp⟩ := hpos
    have hpar := (C62_params sampleArc).1 (by decide +kernel)
    refine ⟨by norm_num, hpar.1, hpar.2.1, hpar.2.2, xy, k1, p, hp,
      fun r hr => by simp [sampleArc, GCode.num?, GCode.param] at hr, fun h => ?_, fun _ => .inr trivial⟩
    rw [k5 p hp, k2] at h
    have := congrArg Complex.re h
    simp [GCode.arcEnd, sampleArc, GCode.num?, GCode.param, Word.num, Pl.coord] at this
  obtain ⟨N, out, h⟩ := (C101_loop { full := true, cannedExpand := true } ⟨true, (.mid, .outside), 1 / 100⟩ fl
    (({ full := true, cannedExpand := true } : NormOpts).machine Mode.null) hm
    (Finset.Subset.refl _) ["G0 X1".toList, "G3 X0 Y1 I-1 F100".toList]).2
    _ (Prod.ext rfl (by decide +kernel)) ⟨nothingB_sound _ (by decide +kernel), harc, trivial⟩
  exact ⟨N, fun fuel hf => (C101_run _ _ fl fuel Mode.null hm _).1.trans (by rw [h fuel hf])⟩

end Pygcode
