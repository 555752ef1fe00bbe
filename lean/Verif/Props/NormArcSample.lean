import Verif.Props.NormArcPath

/-!
# C73: a concrete case
-/

namespace Pygcode
open Pl Machine Props

/-- In absolute mode the vertices of an arc in the XY plane are no farther from the centre than the
radius and the error, and no higher or lower than both ends. -/
theorem vertices_xy {g : GCode} {start : Position} {plane : Option Cls} {m : ArcMethod} {arcIncr : Bool} {e : ℝ} {d : ℤ}
    {vs : List V3} {s : V3} (hs : start.vector = s) (hpl : plane.getD .selectXYPlane = .selectXYPlane)
    (hne : xy.coord s ≠ xy.coord (g.arcEnd s false))
    (h : linearizeArc g start plane (some m) false arcIncr e d = (vs, .done)) :
    ∃ (c : ℂ) (r : ℝ), ‖xy.coord s - c‖ = r ∧
      (g.num? 'R' = none → MeanCentre (xy.coord s) (xy.coord (g.arcEnd s false)) (xy.coord (g.arcCenter s arcIncr)) c) ∧
      ∀ v ∈ vs, ‖xy.coord v - c‖ ≤ r + e ∧ min s.z (g.arcEnd s false).z ≤ v.z ∧ v.z ≤ max s.z (g.arcEnd s false).z := by
  obtain ⟨p, m', s', q, a, ls, D, hvs⟩ := linearize_done h
  obtain rfl : s = s' := by exact hs.symm.trans D.start
  have hp : p = xy := by
    have := D.plane
    rw [hpl] at this
    cases p <;> first | rfl | (exact absurd this (by decide))
  subst hp
  have hp' : plane = none ∨ plane = some xy.cls := by
    cases plane with
    | none => exact .inl rfl
    | some c => exact .inr (congrArg some hpl)
  obtain ⟨c, r, -, h1, -, -, h2, h3⟩ := C57_path _ _ _ hp' _ _ _ _ _ _ hs hne h
  refine ⟨c, r, h1, h2, ?_⟩
  have F := arcOf_ok xy _ _ _ _ _ _ a D.ok
  have hq : q = Quat.one := by have := D.quat; exact (Option.some.inj this).symm
  subst hq
  have hang := angle_ne xy a (sweeps_xy _ _ _ _ _ a D.ok) (by rw [F.cStart, F.cEnd]; exact hne)
  obtain ⟨us, fs, k1, k2, -, -, k3⟩ := C61_helix xy _ _ _ _ _ _ a D.ok hne D.pos hang m'
  rw [D.verts] at k1
  have hls := Except.ok.inj k1
  rw [if_neg (by simp), hls] at hvs
  have hus : us = vs := by
    rw [hvs]
    unfold segments
    rw [List.map_snd_zip (by simp)]
  subst hus
  intro v hv
  obtain ⟨i, hi⟩ := List.mem_iff_getElem?.1 hv
  have hil : i < us.length := (List.getElem?_eq_some_iff.1 hi).1
  constructor
  · have hl : ((s :: us)[i]'(by simp; omega), v) ∈ segments s us := by
      refine List.mem_iff_getElem?.2 ⟨i, ?_⟩
      unfold segments
      rw [List.getElem?_zip_eq_some]
      exact ⟨List.getElem?_eq_getElem _, hi⟩
    have he := D.pos
    have := h3 _ hl 1 (by norm_num) (by norm_num)
    have h1' : onSegment ((s :: us)[i]'(by simp; omega), v) 1 = v := by
      have hmul : (v - (s :: us)[i]'(by simp; omega)).mul 1 = v - (s :: us)[i]'(by simp; omega) := by
        apply V3.ext <;> exact mul_one _
      show (s :: us)[i]'(by simp; omega) + (v - (s :: us)[i]'(by simp; omega)).mul 1 = v
      rw [hmul]
      apply V3.ext <;> exact add_sub_cancel _ _
    rw [h1'] at this
    cases m <;> simp only at this <;> linarith [this.2]
  · obtain ⟨f, hf⟩ : ∃ f, fs[i]? = some f := ⟨_, List.getElem?_eq_getElem (by omega)⟩
    obtain ⟨f0, f1, hz, -⟩ := k3 i v f hi hf
    have hz : v.z = s.z + f * ((g.arcEnd s false).z - s.z) := hz
    rw [hz]
    constructor
    · rcases le_total s.z (g.arcEnd s false).z with hle | hle
      · rw [min_eq_left hle]; nlinarith
      · rw [min_eq_right hle]; nlinarith
    · rcases le_total s.z (g.arcEnd s false).z with hle | hle
      · rw [max_eq_right hle]; nlinarith
      · rw [max_eq_left hle]; nlinarith

/-! ## A check for arcs with an exact centre in the XY plane -/

/-- The arc starts and ends at the same distance from its centre, in the XY plane, in absolute mode. -/
def arcFine (m : Machine) (g : GCode) : Bool :=
  match m.pos with
  | .error _ => false
  | .ok p =>
    let end_ := fun (a : Axis) => (g.num? a.letter).getD (p.val a)
    let c := fun (l : Char) (a : Axis) => (g.num? l).getD 0 + if arcIncremental m then p.val a else 0
    let d := fun (x y : ℚ) => (x - c 'I' .X) ^ 2 + (y - c 'J' .Y) ^ 2
    decide (.X ∈ p.axes ∧ .Y ∈ p.axes ∧ .Z ∈ p.axes) &&
      decide ((m.mode.plane.map GCode.cls).getD .selectXYPlane = .selectXYPlane) && !m.incremental &&
      g.cls.isSub .arcMove && decide (g.word = ⟨'G', .num 2⟩ ∨ g.word = ⟨'G', .num 3⟩) && g.assertArcParams.isOk &&
      (g.num? 'R').isNone && decide (¬ (p.val .X = end_ .X ∧ p.val .Y = end_ .Y)) &&
      decide (d (p.val .X) (p.val .Y) = d (end_ .X) (end_ .Y)) && decide (d (p.val .X) (p.val .Y) ≤ 400 ^ 2) &&
      decide (|c 'I' .X| ≤ 400) && decide (|c 'J' .Y| ≤ 400) && decide (|p.val .Z| ≤ 999) && decide (|end_ .Z| ≤ 999)

theorem arcFine_spec {m : Machine} {g : GCode} (h : arcFine m g = true) {p : Position} (hp : m.pos = .ok p) {e : ℝ}
    (h0 : 0 < e) (h1 : e ≤ 1) (am : ArcMethod) (d : ℤ) :
    ∃ vs, linearizeArc g p (m.mode.plane.map GCode.cls) (some am) m.incremental (arcIncremental m) e d = (vs, .done) ∧
      ∀ v ∈ vs, ∀ a ∈ xyz, |v.at a| ≤ 999 := by
  unfold arcFine at h
  rw [hp] at h
  simp only [Bool.and_eq_true, decide_eq_true_eq, Bool.not_eq_true', Option.isNone_iff_eq_none] at h
  obtain ⟨⟨⟨⟨⟨⟨⟨⟨⟨⟨⟨⟨⟨h1', h2⟩, h3⟩, h4⟩, h5⟩, h6⟩, h7⟩, h8⟩, h9⟩, h10⟩, h11⟩, h12⟩, h13⟩, h14⟩ := h
  have hs : p.vector = ⟨p.val .X, p.val .Y, p.val .Z⟩ := rfl
  have hpar : g.assertArcParams = .ok () := by
    cases hx : g.assertArcParams with
    | ok u => rfl
    | error e => rw [hx] at h6; cases h6
  set s : V3 := ⟨p.val .X, p.val .Y, p.val .Z⟩ with hsd
  have hE : g.arcEnd s false = ⟨((g.num? 'X').getD (p.val .X) : ℚ), ((g.num? 'Y').getD (p.val .Y) : ℚ),
      ((g.num? 'Z').getD (p.val .Z) : ℚ)⟩ := by
    unfold GCode.arcEnd
    rw [if_neg (by simp)]
    rcases g.num? 'X' <;> rcases g.num? 'Y' <;> rcases g.num? 'Z' <;> rfl
  have hC : xy.coord (g.arcCenter s (arcIncremental m)) =
      ⟨(((g.num? 'I').getD 0 + if arcIncremental m then p.val .X else 0 : ℚ) : ℝ),
        (((g.num? 'J').getD 0 + if arcIncremental m then p.val .Y else 0 : ℚ) : ℝ)⟩ := by
    unfold GCode.arcCenter
    cases arcIncremental m
    · simp [Pl.coord]
    · simp [Pl.coord, hsd, add_mk]
  generalize hcx : ((g.num? 'I').getD 0 + if arcIncremental m then p.val .X else 0 : ℚ) = cx at h9 h10 h11 hC
  generalize hcy : ((g.num? 'J').getD 0 + if arcIncremental m then p.val .Y else 0 : ℚ) = cy at h9 h10 h12 hC
  change ¬ (p.val .X = (g.num? 'X').getD (p.val .X) ∧ p.val .Y = (g.num? 'Y').getD (p.val .Y)) at h8
  change (p.val .X - cx) ^ 2 + (p.val .Y - cy) ^ 2 = ((g.num? 'X').getD (p.val .X) - cx) ^ 2 +
    ((g.num? 'Y').getD (p.val .Y) - cy) ^ 2 at h9
  change |(g.num? 'Z').getD (p.val .Z)| ≤ 999 at h14
  generalize (g.num? 'X').getD (p.val .X) = ex at h8 h9 hE
  generalize (g.num? 'Y').getD (p.val .Y) = ey at h8 h9 hE
  generalize (g.num? 'Z').getD (p.val .Z) = ez at h14 hE
  have hne : xy.coord s ≠ xy.coord (g.arcEnd s false) := by
    rw [hE]
    intro h
    refine h8 ⟨?_, ?_⟩
    · have := congrArg Complex.re h
      simpa [Pl.coord, hsd] using this
    · have := congrArg Complex.im h
      simpa [Pl.coord, hsd] using this
  have hn : ∀ x y : ℚ, ∀ z : ℝ, ‖xy.coord ⟨x, y, z⟩ - (⟨cx, cy⟩ : ℂ)‖ = √(((x - cx) ^ 2 + (y - cy) ^ 2 : ℚ) : ℝ) := by
    intro x y z
    rw [Complex.norm_eq_sqrt_sq_add_sq]
    congr 1
    simp [Pl.coord]
  have heq : ‖xy.coord s - xy.coord (g.arcCenter s (arcIncremental m))‖ =
      ‖xy.coord (g.arcEnd s false) - xy.coord (g.arcCenter s (arcIncremental m))‖ := by
    rw [hE, hC, hsd, hn, hn, h9]
  have hrad : ‖xy.coord s - xy.coord (g.arcCenter s (arcIncremental m))‖ ≤ 400 := by
    rw [hC, hsd, hn, Real.sqrt_le_iff]
    refine ⟨by norm_num, ?_⟩
    exact_mod_cast h10
  rw [h3]
  obtain ⟨vs, hvs⟩ := (C62_done g p am false (arcIncremental m) e d s hs hne).2
    ⟨h4, h0, hpar, fun r hr => by rw [h7] at hr; cases hr⟩
  have hpl : linearizeArc g p (m.mode.plane.map GCode.cls) (some am) false (arcIncremental m) e d = (vs, .done) := by
    rw [← hvs]
    cases hx : m.mode.plane.map GCode.cls with
    | none => rfl
    | some c =>
      rw [hx] at h2
      simp only [Option.getD_some] at h2
      rw [h2]
  refine ⟨vs, hpl, fun v hv a ha => ?_⟩
  obtain ⟨c, r, k1, k2, k3⟩ := vertices_xy hs rfl hne hvs
  obtain rfl := (k2 h7).fits heq
  obtain ⟨v1, v2, v3⟩ := k3 v hv
  rw [k1] at hrad
  have hd : ‖xy.coord v - xy.coord (g.arcCenter s (arcIncremental m))‖ ≤ 401 := by linarith
  rw [hC] at hd
  have hcx' : |(cx : ℝ)| ≤ 400 := by exact_mod_cast h11
  have hcy' : |(cy : ℝ)| ≤ 400 := by exact_mod_cast h12
  have hsz : |(p.val .Z : ℝ)| ≤ 999 := by exact_mod_cast h13
  have hez : |(ez : ℝ)| ≤ 999 := by exact_mod_cast h14
  rcases mem_xyz ha with rfl | rfl | rfl
  · have h := (Complex.abs_re_le_norm _).trans hd
    have h : |v.x - cx| ≤ 401 := h
    show |v.x| ≤ 999
    rw [abs_le] at h hcx' ⊢
    constructor <;> linarith [h.1, h.2, hcx'.1, hcx'.2]
  · have h := (Complex.abs_im_le_norm _).trans hd
    have h : |v.y - cy| ≤ 401 := h
    show |v.y| ≤ 999
    rw [abs_le] at h hcy' ⊢
    constructor <;> linarith [h.1, h.2, hcy'.1, hcy'.2]
  · show |v.z| ≤ 999
    rw [hE] at v2 v3
    rw [abs_le] at hsz hez ⊢
    exact ⟨(le_min hsz.1 hez.1).trans v2, v3.trans (max_le hsz.2 hez.2)⟩

/-- `arcLine` without the lines printed for the arc. -/
def arcSkip (o : NormOpts) (m : Machine) (gs : List GCode) (c : Option Comment) : NormRes :=
  match splitGcodes gs .arcMove true with
  | (befores, [g], afters) =>
    (o.putProcess m befores).andThen fun m =>
    (NormRes.put m (o.write [] [] (some (.brackets ("linearized arc: ".toList ++ NormOpts.reprText g))))).andThen fun m =>
    (if arcFine m g then ⟨[], m, .done⟩ else ⟨[], m, .raised .value⟩ : NormRes).andThen fun m =>
    (NormRes.ofM (m.processGcodes [g] [])).andThen fun m =>
    (o.putProcess m afters).andThen fun m =>
    if c = none then ⟨[], m, .done⟩ else NormRes.put m (o.write [] [] c)
  | _ => ⟨[], m, .raised .value⟩

/-- If the second finishes, the first does, with the same machine. -/
def Finishes (a b : NormRes) : Prop := b.status = .done → a.status = .done ∧ a.m = b.m

theorem Finishes.rfl' (a : NormRes) : Finishes a a := fun h => ⟨h, rfl⟩

theorem Finishes.andThen {a b : NormRes} (h : Finishes a b) {f k : Machine → NormRes}
    (hf : b.status = .done → Finishes (f b.m) (k b.m)) : Finishes (a.andThen f) (b.andThen k) := by
  intro hd
  unfold NormRes.andThen at hd ⊢
  cases hs : b.status with
  | done =>
    obtain ⟨h1, h2⟩ := h hs
    rw [hs] at hd
    rw [h1, h2]
    exact hf hs hd
  | raised e => rw [hs] at hd; simp only at hd; rw [hs] at hd; cases hd
  | _ => rw [hs] at hd; simp only at hd; rw [hs] at hd; cases hd

theorem method_fine {m : Machine} {g : GCode} (h : arcFine m g = true) (x : ArcOpts) :
    (∃ p, m.pos = .ok p) ∧ ∃ am, x.method g.word = .ok am := by
  unfold arcFine at h
  cases hp : m.pos with
  | error e => rw [hp] at h; cases h
  | ok p =>
    rw [hp] at h
    simp only [Bool.and_eq_true, decide_eq_true_eq] at h
    obtain ⟨⟨⟨⟨⟨⟨⟨⟨⟨⟨-, h5⟩, -⟩, -⟩, -⟩, -⟩, -⟩, -⟩, -⟩, -⟩, -⟩ := h
    refine ⟨⟨p, rfl⟩, ?_⟩
    unfold ArcOpts.method
    rcases h5 with h5 | h5 <;> rw [h5]
    · exact ⟨_, if_pos rfl⟩
    · rw [if_neg (by decide)]; exact ⟨_, if_pos rfl⟩

theorem putArc_fine {o : NormOpts} {x : ArcOpts} (h0 : 0 < x.precision) (h1 : x.precision ≤ 1) (fl : Floats) {m : Machine}
    {g : GCode} (h : arcFine m g = true) : (o.putArc x fl m g).status = .done ∧ (o.putArc x fl m g).m = m := by
  obtain ⟨⟨p, hp⟩, am, ham⟩ := method_fine h x
  unfold NormOpts.putArc
  rw [hp]
  simp only
  rw [ham]
  simp only
  rw [putAll_eq]
  refine ⟨?_, rfl⟩
  obtain ⟨vs, hvs, -⟩ := arcFine_spec h hp h0 h1 am 3
  unfold NormOpts.arcMoves
  rw [hvs]
  exact (omitGen_linear o _).2

theorem arcLine_finishes {o : NormOpts} {x : ArcOpts} (h0 : 0 < x.precision) (h1 : x.precision ≤ 1) (fl : Floats) (m : Machine)
    (gs : List GCode) (c : Option Comment) : Finishes (o.arcLine x fl m gs c) (arcSkip o m gs c) := by
  unfold NormOpts.arcLine arcSkip
  rcases splitGcodes gs .arcMove true with ⟨befores, mid, afters⟩
  rcases mid with - | ⟨g, - | ⟨g', mid⟩⟩
  · exact Finishes.rfl' _
  · refine Finishes.andThen (Finishes.rfl' _) (fun _ => ?_)
    refine Finishes.andThen (Finishes.rfl' _) (fun _ => ?_)
    refine Finishes.andThen ?_ (fun _ => Finishes.rfl' _)
    intro hd
    by_cases hf : arcFine (NormRes.put (o.putProcess m befores).m
      (o.write [] [] (some (.brackets ("linearized arc: ".toList ++ NormOpts.reprText g))))).m g = true
    · rw [if_pos hf] at hd ⊢
      exact putArc_fine h0 h1 fl hf
    · rw [if_neg hf] at hd; cases hd
  · exact Finishes.rfl' _

/-- What is checked of a line with an arc: its words print plainly, and there is no conflict. -/
def arcB (o : NormOpts) (l : Line) (befores : List GCode) (g : GCode) (afters : List GCode) : Bool :=
  (befores.flatMap (fun x => x.word :: x.params)).all Pygcode.plainB && (g.word :: g.params).all Pygcode.plainB &&
    (afters.flatMap (fun x => x.word :: x.params)).all Pygcode.plainB &&
    (o.singles || ((Block.assertLoop [] [] befores).isOk && (Block.assertLoop [] [] afters).isOk)) &&
    decide (l.macro? = none)

/-- A check of a line, without real numbers: the theorems apply to it, and it is printed to the end. -/
def lineB (o : NormOpts) (fuel : ℕ) (m : Machine) (t : List Char) : Bool :=
  match Line.ofText t with
  | .error _ => false
  | .ok l =>
    match m.blockModalGcodes l.block with
    | .error _ => false
    | .ok gs =>
      if gs.any (fun g => g.cls.isSub .arcMove) then
        match splitGcodes gs .arcMove true with
        | (befores, [g], afters) => arcB o l befores g afters && arcFine (m.processAll befores).1 g &&
          decide ((arcSkip o m gs l.comment).status = .done)
        | _ => false
      else if o.cannedExpand && gs.any (fun g => decide (g.word ∈ o.cannedCodes)) then
        match splitGcodes gs .cannedCycle true with
        | (befores, [g], afters) => expandsB o fuel m l befores g afters &&
          decide ((o.expandLine fuel m gs l.comment).status = .done)
        | _ => false
      else (if o.full then tidyB o l gs [] else tidyB o l l.block.gcodes l.block.modalParams) &&
        decide ((o.plainLine m l gs).status = .done)

/-- The same for all lines. -/
def programB (o : NormOpts) (fuel : ℕ) (m : Machine) : List (List Char) → Bool
  | [] => true
  | t :: ts => lineB o fuel m t && programB o fuel (m.processStr t).1 ts

theorem arcB_sound {o : NormOpts} {x : ArcOpts} (h0 : 0 < x.precision) (h1 : x.precision ≤ 1) {m : Machine} {l : Line}
    {befores : List GCode} {g : GCode} {afters : List GCode} (h : arcB o l befores g afters = true)
    (hf : arcFine (m.processAll befores).1 g = true) : Linearizes o x m l befores g afters := by
  unfold arcB at h
  simp only [Bool.and_eq_true, Bool.or_eq_true, decide_eq_true_eq] at h
  obtain ⟨⟨⟨⟨k1, k2⟩, k3⟩, k4⟩, k5⟩ := h
  have hc : o.singles = false → (Block.assertLoop [] [] befores).isOk = true ∧ (Block.assertLoop [] [] afters).isOk = true := by
    intro hs
    rcases k4 with k4 | k4
    · rw [hs] at k4; cases k4
    · exact k4
  refine ⟨fun w hw => plainB_sound (List.all_eq_true.1 k1 w hw), fun w hw => plainB_sound (List.all_eq_true.1 k2 w hw),
    fun w hw => plainB_sound (List.all_eq_true.1 k3 w hw), fun hs => no_conflict_of_ok (hc hs).1,
    fun hs => no_conflict_of_ok (hc hs).2, .inr (.inl k5), ?_⟩
  intro p am hp v hv a ha
  obtain ⟨vs, hvs, hsm⟩ := arcFine_spec hf hp h0 h1 am 3
  unfold arcVertices at hv
  rw [hvs] at hv
  exact hsm v hv a ha

theorem lineB_sound {o : NormOpts} (hi : o.rmInvalid = false) {x : ArcOpts} (hon : x.on = true) (h0 : 0 < x.precision)
    (h1 : x.precision ≤ 1) (fl : Floats) {fuel : ℕ} {m : Machine} {t : List Char} (h : lineB o fuel m t = true) :
    LineReplaces o x fuel m t ∧ (o.lineA x fl fuel m t).status = .done := by
  unfold lineB at h
  unfold LineReplaces NormOpts.lineA
  cases hl : Line.ofText t with
  | error e => rw [hl] at h; cases h
  | ok l =>
    rw [hl] at h
    simp only [hi, Bool.false_eq_true, if_false, hon, Bool.true_and] at h ⊢
    cases hgs : m.blockModalGcodes l.block with
    | error e => rw [hgs] at h; cases h
    | ok gs =>
      rw [hgs] at h
      simp only at h ⊢
      by_cases ha : gs.any (fun g => g.cls.isSub .arcMove) = true
      · rw [if_pos ha] at h
        cases hsp : splitGcodes gs .arcMove true with
        | mk befores rest =>
          obtain ⟨mid, afters⟩ := rest
          rw [hsp] at h
          rcases mid with - | ⟨g, - | ⟨g', mid⟩⟩
          · cases h
          · simp only [Bool.and_eq_true, decide_eq_true_eq] at h
            refine ⟨?_, ?_⟩
            · intro l' gs' hl' hgs'
              obtain rfl := Except.ok.inj hl'
              rw [hgs] at hgs'
              obtain rfl := Except.ok.inj hgs'
              rw [if_pos ha, hsp]
              intro b' g' a' he
              cases he
              exact arcB_sound h0 h1 h.1.1 h.1.2
            · rw [if_pos ha]
              exact (arcLine_finishes h0 h1 fl m gs l.comment h.2).1
          · cases h
      · rw [if_neg ha] at h
        by_cases hx : (o.cannedExpand && gs.any (fun g => decide (g.word ∈ o.cannedCodes))) = true
        · rw [if_pos hx] at h
          cases hsp : splitGcodes gs .cannedCycle true with
          | mk befores rest =>
            obtain ⟨mid, afters⟩ := rest
            rw [hsp] at h
            rcases mid with - | ⟨g, - | ⟨g', mid⟩⟩
            · cases h
            · simp only [Bool.and_eq_true, decide_eq_true_eq] at h
              refine ⟨?_, ?_⟩
              · intro l' gs' hl' hgs'
                obtain rfl := Except.ok.inj hl'
                rw [hgs] at hgs'
                obtain rfl := Except.ok.inj hgs'
                rw [if_neg ha, if_pos hx, hsp]
                intro b' g' a' he
                cases he
                exact expandsB_sound h.1
              · rw [if_neg ha, if_pos hx]
                exact h.2
            · cases h
        · rw [if_neg hx] at h
          simp only [Bool.and_eq_true, decide_eq_true_eq] at h
          refine ⟨?_, ?_⟩
          · intro l' gs' hl' hgs'
            obtain rfl := Except.ok.inj hl'
            rw [hgs] at hgs'
            obtain rfl := Except.ok.inj hgs'
            rw [if_neg ha, if_neg hx]
            by_cases hfull : o.full = true
            · rw [if_pos hfull] at h ⊢; exact tidyB_sound h.1
            · rw [if_neg hfull] at h ⊢; exact tidyB_sound h.1
          · rw [if_neg ha, if_neg hx]
            exact h.2

/-- A program that passes the check is printed to the end, and the theorems apply to it. -/
theorem programB_sound {o : NormOpts} (hr : o.rmGcodes = []) (hi : o.rmInvalid = false) {x : ArcOpts} (hon : x.on = true)
    (h0 : 0 < x.precision) (h1 : x.precision ≤ 1) {fl : Floats} {ε : ℚ} (hε0 : 0 ≤ ε) (hε : ε < 1 / 2000)
    (hfl : FloatsOK ε fl) {fuel : ℕ} (ts : List (List Char)) :
    ∀ {m : Machine}, Sound m → m.ignoreInvalid = false → m.axes = xyz → programB o fuel m ts = true →
      LinesReplace o x fuel m ts ∧ (o.loopA x fl fuel m ts).status = .done := by
  induction ts with
  | nil => exact fun _ _ _ _ => ⟨trivial, rfl⟩
  | cons t ts ih =>
    intro m hm hig hax h
    unfold programB at h
    rw [Bool.and_eq_true] at h
    obtain ⟨k1, k2⟩ := lineB_sound hi hon h0 h1 fl h.1
    obtain ⟨k3, -⟩ := lineA_trails o hr hi x hon fl hε0 hε hfl fuel (le_refl 0) (.refl _ m) (Off.rfl' m) hm hm hm hax hig t k1 k2
    have hfr := str_frozen hm.wf t
    obtain ⟨k4, k5⟩ := ih (hm.str t) ((congrArg (fun x => x.2.1) hfr).trans hig)
      ((show (m.processStr t).1.axes = m.axes from congrArg Prod.fst hfr).trans hax) h.2
    refine ⟨⟨k1, k4⟩, ?_⟩
    unfold NormOpts.loopA NormRes.andThen
    rw [k2]
    simp only
    rw [k3] at k5
    exact k5

/-- Coordinates computed to four decimals, rounded down. -/
noncomputable def floorFloats : Floats := fun _ _ vs => vs.map (fun v =>
  ⟨⌊v.x * 10000⌋ / 10000, ⌊v.y * 10000⌋ / 10000, ⌊v.z * 10000⌋ / 10000⟩)

theorem floor_close (x : ℝ) : |(((⌊x * 10000⌋ : ℚ) / 10000 : ℚ) : ℝ) - x| ≤ ((1 / 10000 : ℚ) : ℝ) := by
  push_cast
  have h1 := Int.floor_le (x * 10000)
  have h2 := Int.lt_floor_add_one (x * 10000)
  generalize (⌊x * 10000⌋ : ℝ) = n at h1 h2 ⊢
  rw [abs_le]
  constructor <;> linarith

theorem floorFloats_ok : FloatsOK (1 / 10000) floorFloats := by
  intro m g vs _
  unfold floorFloats
  rw [List.forall₂_map_left_iff]
  refine List.forall₂_same.2 (fun v _ a ha => ?_)
  have : a = .X ∨ a = .Y ∨ a = .Z := mem_xyz ha
  rcases this with rfl | rfl | rfl
  · exact floor_close v.x
  · exact floor_close v.y
  · exact floor_close v.z

/-- A program with arcs given in full and by left-over words, among other words, and a cycle. -/
def arcSample : List (List Char) := ["G17 G90", "G2 X1 Y1 I1 (corner)", "X2 Y0 J-1", "G1 X5", "F100 G3 X5 Y2 J1 Z-1",
  "G0 Z5", "G81 X2 Y3 Z-1 R2"].map String.toList

/-- Linearizing to a hundredth, with the methods `i,o`. -/
noncomputable def arcSampleOpts : ArcOpts := ⟨true, (.inside, .outside), 1 / 100⟩

/-- The theorems apply to it: after three arcs in absolute mode the reader is where the program is, up
to 6/10000. -/
example : ∃ b, readLines newNull (expandOpts.loopA arcSampleOpts floorFloats 20 newNull arcSample).out = (b, none) ∧
    CloseButMotion (1 / 10000 + 1 / 2000) (expandOpts.loopA arcSampleOpts floorFloats 20 newNull arcSample).m b := by
  obtain ⟨h1, h2⟩ := programB_sound (o := expandOpts) rfl rfl (x := arcSampleOpts) rfl (by norm_num [arcSampleOpts])
    (by norm_num [arcSampleOpts]) (by norm_num) (by norm_num) floorFloats_ok (fuel := 20) arcSample (m := newNull)
    (reader_null xyz).sound rfl rfl (by decide +kernel)
  exact C73_absolute_partial expandOpts rfl rfl arcSampleOpts rfl floorFloats _ (by norm_num) (by norm_num) floorFloats_ok 20 newNull
    (reader_null xyz).sound rfl rfl arcSample h1 (by decide +kernel) h2

/-- Where it ends. -/
example : (arcsOf newNull arcSample).length = 3 ∧
    ((readLines newNull arcSample).1.pos.map (fun p => (p.val .X, p.val .Y, p.val .Z)) = .ok (2, 3, 5)) := by decide +kernel

/-- `G2 X1 Y1 I1` -/
def cornerArc : GCode := ⟨.arcMoveCW, ⟨'G', .num 2⟩, [⟨'X', .num 1⟩, ⟨'Y', .num 1⟩, ⟨'I', .num 1⟩], false⟩

/-- The printed lines, read by a machine at the origin, stay within 112/10000 of the circle around (1, 0). -/
example (am : ArcMethod) : ∃ p, newNull.pos = .ok p ∧
    ∀ n < (expandOpts.arcMoves arcSampleOpts floorFloats newNull p am cornerArc).1.length, ∃ b₁ b₂ p₁ p₂ u₁ u₂,
      readLines newNull (arcText expandOpts arcSampleOpts floorFloats newNull p am cornerArc n) = (b₁, none) ∧
      b₁.pos = .ok p₁ ∧ p₁.vector = u₁ ∧
      readLines newNull (arcText expandOpts arcSampleOpts floorFloats newNull p am cornerArc (n + 1)) = (b₂, none) ∧
      b₂.pos = .ok p₂ ∧ p₂.vector = u₂ ∧
      ∀ t, 0 ≤ t → t ≤ 1 → |‖xy.coord (onSegment (u₁, u₂) t) - 1‖ - 1| ≤ 112 / 10000 := by
  have hfine : arcFine newNull cornerArc = true := by decide +kernel
  obtain ⟨⟨p, hp⟩, -⟩ := method_fine hfine arcSampleOpts
  refine ⟨p, hp, ?_⟩
  have hm : Sound newNull := (reader_null xyz).sound
  have hpz : p.axes = xyz ∧ p.val .X = 0 ∧ p.val .Y = 0 ∧ p.val .Z = 0 := by
    have : newNull.pos.map (fun p => (p.axes, p.val .X, p.val .Y, p.val .Z)) = .ok (xyz, 0, 0, 0) := by decide +kernel
    rw [hp] at this
    simpa [Except.map] using this
  have hs : p.vector = ⟨0, 0, 0⟩ := by
    unfold Position.vector
    rw [hpz.2.1, hpz.2.2.1, hpz.2.2.2]
    simp
  have hinc : newNull.incremental = false := by decide +kernel
  have hainc : arcIncremental newNull = true := by decide +kernel
  have hE : cornerArc.arcEnd ⟨0, 0, 0⟩ false = ⟨1, 1, 0⟩ := by
    simp [cornerArc, GCode.arcEnd, GCode.num?, GCode.param, Word.num]
  have hC : xy.coord (cornerArc.arcCenter ⟨0, 0, 0⟩ true) = 1 := by
    apply Complex.ext <;> simp [GCode.arcCenter, cornerArc, GCode.num?, GCode.param, Word.num, Pl.coord, add_mk]
  obtain ⟨vs, hvs, hsm⟩ := arcFine_spec hfine hp (e := arcSampleOpts.precision) (by norm_num [arcSampleOpts])
    (by norm_num [arcSampleOpts]) am 3
  have hav : arcVertices arcSampleOpts newNull p am cornerArc = vs := by unfold arcVertices; rw [hvs]
  obtain ⟨c, r, h1, h2, h3, -, h4, h5⟩ := C73_path expandOpts rfl arcSampleOpts floorFloats (1 / 10000) (by norm_num) (by norm_num)
    floorFloats_ok newNull newNull hm hm (.refl _) rfl cornerArc p hp _ hs am (by decide +kernel)
    (by rw [← arcEndOf_eq hm, hinc, hE]; intro h; have := congrArg Complex.re h; simp [Pl.coord] at this)
    (by rw [hav]; exact hvs) (by rw [hav]; exact hsm)
  rw [← arcEndOf_eq hm, ← arcCentreOf_eq hm, hinc, hainc, hE, hC] at h4
  have hc := (h4 (by decide +kernel)).fits (by
    have a : xy.coord ⟨0, 0, 0⟩ - 1 = -1 := by apply Complex.ext <;> simp [Pl.coord]
    have b : xy.coord ⟨1, 1, 0⟩ - 1 = Complex.I := by apply Complex.ext <;> simp [Pl.coord]
    rw [a, b]; simp)
  subst hc
  have hr : r = 1 := by
    rw [← h2]
    have a : xy.coord ⟨0, 0, 0⟩ - 1 = -1 := by apply Complex.ext <;> simp [Pl.coord]
    rw [a]; simp
  subst hr
  intro n hn
  obtain ⟨b₁, b₂, p₁, p₂, u₁, u₂, k1, k2, k3, k4, k5, k6, k7⟩ := h5 n hn
  refine ⟨b₁, b₂, p₁, p₂, u₁, u₂, k1, k2, k3, k4, k5, k6, fun t t0 t1 => (k7 t t0 t1).trans ?_⟩
  norm_num [arcSampleOpts]

end Pygcode
