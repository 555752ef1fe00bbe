import Verif.Lemmas.OffBox
import Verif.Props.CropPreamble
import Verif.Props.NormArcInside
import Verif.Props.NormFinish
import Verif.Props.Instances2

/-!
# How high the tool gets on arcs, and the level recorded (C120)
-/

namespace Pygcode
open Props Machine Spec Pl

/-! ## Specification -/

/-- The axis along the normal of a plane. -/
def Pl.axis : Pl → Axis
  | xy => .Z
  | zx => .Y
  | yz => .X

/-- Arcs of machine `m` turn in the plane `pl`. -/
def TurnsIn (m : Machine) (pl : Pl) : Prop := (m.mode 2).map GCode.cls = some pl.cls ∨ (m.mode 2 = none ∧ pl = xy)

/-- A coordinate given by a word: added to `s` in distance mode G91, and `s` if there is no such word. -/
noncomputable def wordTo (m : Machine) (g : GCode) (w : Char) (s : ℝ) : ℝ :=
  if (m.mode 3).map GCode.cls = some .incrementalDistanceMode then s + ((g.num? w).getD 0 : ℚ) else ((g.num? w).map Rat.cast).getD s

/-- Where an arc from `s` ends. -/
noncomputable def goalOf (m : Machine) (g : GCode) (s : V3) : V3 := ⟨wordTo m g 'X' s.x, wordTo m g 'Y' s.y, wordTo m g 'Z' s.z⟩

/-- A coordinate of the centre: added to `s` unless the mode is G90.1. -/
noncomputable def centreWord (m : Machine) (g : GCode) (w : Char) (s : ℝ) : ℝ :=
  if (m.mode 4).map GCode.cls = some .absoluteArcDistanceMode then ((g.num? w).getD 0 : ℚ) else s + ((g.num? w).getD 0 : ℚ)

/-- The centre that an arc from `s` names. -/
noncomputable def centreOf (m : Machine) (g : GCode) (s : V3) : V3 := ⟨centreWord m g 'I' s.x, centreWord m g 'J' s.y, centreWord m g 'K' s.z⟩

/-- The place `q` (in machine coordinates) is on the helix that arc `g` asks for, of a machine `m` at `s` (in its own coordinates):
it turns about some centre in the plane from `s` to its end, clockwise for G2 (seen from the positive end of the normal), and
evenly climbs along the normal at the same time. -/
def PassesArc (m : Machine) (g : GCode) (pl : Pl) (s : V3) (q : Axis → ℝ) : Prop :=
  TurnsIn m pl ∧ ∃ (c : ℂ) (A t : ℝ) (u : V3), 0 ≤ t ∧ t ≤ 1 ∧
    turned c (pl.coord s) A 1 = pl.coord (goalOf m g s) ∧
    (g.cls.isSub .arcMoveCW = true → 0 < A ∧ A ≤ 2 * Real.pi) ∧
    (g.cls.isSub .arcMoveCW = false → -(2 * Real.pi) ≤ A ∧ A < 0) ∧
    (∀ y, g.num? 'R' = some y → ‖pl.coord s - c‖ = |(y : ℝ)| ∧ (0 < y → |A| ≤ Real.pi) ∧ (y < 0 → Real.pi ≤ |A|)) ∧
    (g.num? 'R' = none → ‖pl.coord s - pl.coord (centreOf m g s)‖ = ‖pl.coord (goalOf m g s) - pl.coord (centreOf m g s)‖ →
      c = pl.coord (centreOf m g s)) ∧
    pl.coord u = turned c (pl.coord s) A t ∧ pl.height u = pl.height s + t * (pl.height (goalOf m g s) - pl.height s) ∧
    ∀ a ∈ xyz, q a = (m.state.offset.val a : ℝ) + m.sysOff a + u.at a

/-- Among the gcodes executed for line `l` by machine `m` is an arc, in the plane `pl`, and `q` is on it. -/
def LinePasses (m : Machine) (l : Line) (pl : Pl) (q : Axis → ℝ) : Prop :=
  ∃ (befores afters : List GCode) (g : GCode) (p : Position), m.blockModalGcodes l.block = .ok (befores ++ g :: afters) ∧
    g.cls.isSub .arcMove = true ∧ (m.processAll befores).1.pos = .ok p ∧ PassesArc (m.processAll befores).1 g pl p.vector q

/-! ## Proof -/

theorem goalOf_eq {m : Machine} (hm : Sound m) (g : GCode) (s : V3) : g.arcEnd s m.incremental = goalOf m g s := by
  have h := incremental_eq hm
  unfold goalOf wordTo
  by_cases hi : (m.mode 3).map GCode.cls = some .incrementalDistanceMode
  · have h1 : m.incremental = true := by rw [h]; exact decide_eq_true hi
    rw [h1]
    simp only [hi, if_true]
    simp only [GCode.arcEnd, if_true]
    rfl
  · have h1 : m.incremental = false := by rw [h]; exact decide_eq_false hi
    rw [h1]
    simp only [hi, if_false]
    simp only [GCode.arcEnd, Bool.false_eq_true, if_false]

theorem height_at (pl : Pl) (u : V3) : u.at pl.axis = pl.height u := by cases pl <;> rfl

theorem axis_xyz (pl : Pl) : pl.axis ∈ xyz := by cases pl <;> decide

/-- **C120**: on an arc the machine is never higher or lower along the normal of the plane of the arc than what it records. -/
theorem C120_arc {m : Machine} (hm : Sound m) (hax : m.axes = xyz) (hh : Home m) (g : GCode) (hok : GOK g) (hn : Named g)
    (harc : g.cls.isSub .arcMove = true) (p : Position) (hp : m.pos = .ok p) (pl : Pl) (q : Axis → ℝ)
    (hq : PassesArc m g pl p.vector q) :
    ((m.process g).1.rangeMin.val pl.axis : ℝ) ≤ q pl.axis ∧ q pl.axis ≤ (m.process g).1.rangeMax.val pl.axis := by
  obtain ⟨-, c, A, t, u, t0, t1, -, -, -, -, -, -, hu, hqa⟩ := hq
  obtain ⟨m', h1, -, -, -, h2⟩ := arc_target hm hax g hok hn harc p hp _ rfl
  have hx := axis_xyz pl
  have e := h2 pl.axis hx
  rw [goalOf_eq hm, height_at] at e
  have hpath := path_process m hm.wf g hok
  obtain ⟨r1, r2, r3⟩ := path_grows hpath pl.axis (by rw [hax]; exact hx)
  have r4 := r3 (hh _ hx)
  rw [h1] at r1 r2 r4 ⊢
  simp only at r1 r2 r4 ⊢
  obtain ⟨k1, k2⟩ := hh _ hx
  have hs := place_at hm rfl hp rfl pl.axis hx
  rw [height_at] at hs
  rw [hqa _ hx, height_at, hu]
  unfold offOf at e
  push_cast at e
  have q1 : ((m'.rangeMin.val pl.axis : ℚ) : ℝ) ≤ m.absPos.val pl.axis := by exact_mod_cast r1.trans k1
  have q2 : ((m.absPos.val pl.axis : ℚ) : ℝ) ≤ m'.rangeMax.val pl.axis := by exact_mod_cast k2.trans r2
  have q3 : ((m'.rangeMin.val pl.axis : ℚ) : ℝ) ≤ m'.absPos.val pl.axis := by exact_mod_cast r4.1
  have q4 : ((m'.absPos.val pl.axis : ℚ) : ℝ) ≤ m'.rangeMax.val pl.axis := by exact_mod_cast r4.2
  generalize pl.height (goalOf m g p.vector) = b at *
  generalize pl.height p.vector = a at *
  generalize ((m.absPos.val pl.axis : ℚ) : ℝ) = P at *
  generalize ((m'.absPos.val pl.axis : ℚ) : ℝ) = P' at *
  have hval : (m.state.offset.val pl.axis : ℝ) + m.sysOff pl.axis + (a + t * (b - a)) = (1 - t) * P + t * P' := by
    rw [hs, show P' = b + ((m.state.offset.val pl.axis : ℝ) + m.sysOff pl.axis) by linarith]
    ring
  rw [hval]
  constructor <;> nlinarith

theorem trace_grow {i : ℕ} {m : Machine} {ts : List (List Char)} {ss : List CropStep} (h : CropTrace i m ts ss) : Sound m → m.axes = xyz →
    Home m → ∀ s ∈ ss, i < s.n ∧ Sound s.before ∧ s.before.axes = xyz ∧ Home s.before ∧
      (∀ a ∈ xyz, s.before.rangeMin.val a ≤ m.rangeMin.val a ∧ m.rangeMax.val a ≤ s.before.rangeMax.val a) ∧
      (∃ t, Line.ofText t = .ok s.line) ∧ (s.before.processBlock s.line.block).2 = none := by
  induction h with
  | nil => simp
  | @cons i m t ts l m' p ss h1 h2 h3 h4 ih =>
    intro hm hax hh s hs
    rcases List.mem_cons.1 hs with rfl | hs
    · exact ⟨Nat.lt_succ_self _, hm, hax, hh, fun a _ => ⟨le_refl _, le_refl _⟩, ⟨t, h1⟩, by simp only [h2]⟩
    · have hstr : m.processStr t = (m', none) := by unfold processStr; rw [h1]; exact h2
      have hpath := path_str hm.wf t
      have hm' := hm.str t
      rw [hstr] at hpath hm'
      have hax' : m'.axes = xyz := hpath.frame.axes.trans hax
      obtain ⟨k0, k1, k2, k3, k4, k5⟩ := ih hm' hax' (home_along hpath hax hh) s hs
      refine ⟨by omega, k1, k2, k3, fun a ha => ?_, k5⟩
      obtain ⟨g1, g2, -⟩ := path_grows hpath a (by rw [hax]; exact ha)
      exact ⟨(k4 a ha).1.trans g1, g2.trans (k4 a ha).2⟩

/-- What a line records is still recorded before later lines. -/
theorem trace_later {i : ℕ} {m : Machine} {ts : List (List Char)} {ss : List CropStep} (h : CropTrace i m ts ss) : Sound m → m.axes = xyz →
    Home m → ∀ r ∈ ss, ∀ s ∈ ss, r.n < s.n → ∀ a ∈ xyz,
      s.before.rangeMin.val a ≤ (r.before.processBlock r.line.block).1.rangeMin.val a ∧
        (r.before.processBlock r.line.block).1.rangeMax.val a ≤ s.before.rangeMax.val a := by
  induction h with
  | nil => simp
  | @cons i m t ts l m' p ss h1 h2 h3 h4 ih =>
    intro hm hax hh r hr s hs hlt
    have hstr : m.processStr t = (m', none) := by unfold processStr; rw [h1]; exact h2
    have hpath := path_str hm.wf t
    have hm' := hm.str t
    rw [hstr] at hpath hm'
    have hax' : m'.axes = xyz := hpath.frame.axes.trans hax
    have hh' := home_along hpath hax hh
    rcases List.mem_cons.1 hr with rfl | hr
    · rcases List.mem_cons.1 hs with rfl | hs
      · exact absurd hlt (lt_irrefl _)
      · have := (trace_grow h4 hm' hax' hh' s hs).2.2.2.2.1
        simp only [h2]
        exact this
    · rcases List.mem_cons.1 hs with rfl | hs
      · have := (trace_grow h4 hm' hax' hh' r hr).1
        simp only at hlt
        omega
      · exact ih hm' hax' hh' r hr s hs hlt

theorem line_level {m : Machine} (hm : Sound m) (hax : m.axes = xyz) (hh : Home m) {t : List Char} {l : Line} (hl : Line.ofText t = .ok l)
    (hd : (m.processBlock l.block).2 = none) (pl : Pl) (q : Axis → ℝ) (hq : LinePasses m l pl q) :
    ((m.processBlock l.block).1.rangeMin.val pl.axis : ℝ) ≤ q pl.axis ∧ q pl.axis ≤ (m.processBlock l.block).1.rangeMax.val pl.axis := by
  obtain ⟨befores, afters, g, p, hgs, harc, hp, hq⟩ := hq
  obtain ⟨e1, e2, -, e4, -, e6⟩ := effective_ok hl hm.ok hm.named hgs
  have hb : ∀ x ∈ befores, GOK x := fun x hx => e2 x (by simp [hx])
  have hbn : ∀ x ∈ befores, Named x := fun x hx => e1 x (by simp [hx])
  have p₁ := path_all befores hb m hm.wf
  have hax₁ : (m.processAll befores).1.axes = xyz := p₁.frame.axes.trans hax
  have home₁ := home_along p₁ hax hh
  have S₁ : Sound (m.processAll befores).1 := Sound.all hb hbn hm
  have hres := C120_arc S₁ hax₁ home₁ g (e2 g (by simp)) (e1 g (by simp)) harc p hp pl q hq
  have p₂ := path_process (m.processAll befores).1 S₁.wf g (e2 g (by simp))
  have p₃ := path_all afters (fun x hx => e2 x (by simp [hx])) ((m.processAll befores).1.process g).1 (p₂.wf S₁.wf)
  obtain ⟨k1, k2, -⟩ := path_grows p₃ pl.axis (by rw [p₂.frame.axes, hax₁]; exact axis_xyz pl)
  have hend : (m.processBlock l.block).1 = (((m.processAll befores).1.process g).1.processAll afters).1 := by
    rw [e6, processAll_append] at hd ⊢
    rcases hz : m.processAll befores with ⟨m₁, _ | e⟩
    · rw [hz] at hd
      have hd' : (Machine.andThen (m₁.process g) (fun m => m.processAll afters)).2 = none := hd
      show (Machine.andThen (m₁.process g) (fun m => m.processAll afters)).1 = _
      rcases hz' : m₁.process g with ⟨m₂, _ | e⟩
      · rfl
      · rw [hz'] at hd'; cases hd'
    · rw [hz] at hd; cases hd
  rw [hend]
  have k1' : ((((m.processAll befores).1.process g).1.processAll afters).1.rangeMin.val pl.axis : ℝ) ≤
    ((m.processAll befores).1.process g).1.rangeMin.val pl.axis := by exact_mod_cast k1
  have k2' : (((m.processAll befores).1.process g).1.rangeMax.val pl.axis : ℝ) ≤
    (((m.processAll befores).1.process g).1.processAll afters).1.rangeMax.val pl.axis := by exact_mod_cast k2
  exact ⟨k1'.trans hres.1, hres.2.trans k2'⟩

theorem home_null : Home newNull := (reader_null xyz).within

/-- **C120**: the first move printed by pygcode-crop, along the normal axis `n`, goes as high as the tool ever was in the removed
lines, also on the way along arcs that turn about that axis. -/
theorem C120_crop {ts : List (List Char)} {ss : List CropStep} (h : CropTrace 0 newNull ts ss) (s : CropStep)
    (hs : s ∈ ss) (pl : Pl) (hc : Croppable s.before pl.axis) (M : Machine) (hM : Clear M)
    (hinc : s.before.mode.distance = none → M.incremental = false) :
    ∃ (pre : List (List Char)) (up over down : List Char) (M₀ M₁ M₂ : Machine), cropPreamble s.before.copy = (pre ++ [up, over, down, []], none) ∧
      readLines M pre = (M₀, none) ∧ M₀.processStr up = (M₁, none) ∧ M₁.processStr over = (M₂, none) ∧
      (∀ r ∈ ss, r.n < s.n → ∀ q, LinePasses r.before r.line pl q →
        q pl.axis ≤ M₁.absPos.val pl.axis ∧ q pl.axis ≤ M₂.absPos.val pl.axis) := by
  obtain ⟨hcl, h1, h2, h3⟩ := trace_clear h s hs
  obtain ⟨pre, up, over, down, M₀, M₁, M₂, M₃, a1, a2, a3, a4, a5, a6, a7, a8, a9, -⟩ :=
    preamble_run hcl hc h1 h2 h3 hM hinc
  refine ⟨pre, up, over, down, M₀, M₁, M₂, a1, a2, a3, a4, ?_⟩
  intro r hr hlt q hq
  have hS := (reader_null xyz).sound
  obtain ⟨-, g1, g2, g3, -, ⟨t, g4⟩, g5⟩ := trace_grow h hS rfl home_null r hr
  have hlev := (line_level g1 g2 g3 g4 g5 pl q hq).2
  have hlat := (trace_later h hS rfl home_null r hr s hs hlt _ (axis_xyz pl)).2
  have hlat' : ((r.before.processBlock r.line.block).1.rangeMax.val pl.axis : ℝ) ≤ s.before.rangeMax.val pl.axis := by exact_mod_cast hlat
  rw [a7.1, a8.1]
  exact ⟨hlev.trans hlat', hlev.trans hlat'⟩

/-- **C120**: the safe height that pygcode-norm --zero_xy takes by default (in the coordinates at the end of the program) is no lower
than any point of an arc in the XY plane. -/
theorem C120_safe (o : NormOpts) (hsf : o.safety = none) (md : Mode) (hm₀ : Sound (o.machine md)) (pre post : List (List Char))
    (t : List Char) (l : Line) (hl : Line.ofText t = .ok l) (m₁ m : Machine) (h₁ : readLines (o.machine md) pre = (m₁, none))
    (h : readLines (o.machine md) (pre ++ t :: post) = (m, none)) (q : Axis → ℝ) (hq : LinePasses m₁ l xy q) :
    ∃ z : ℚ, o.safeHeight m = .ok z ∧ q .Z ≤ (m.state.offset.val .Z : ℝ) + m.sysOff .Z + z := by
  have hh₀ : Home (o.machine md) := fun a _ => ⟨le_refl _, le_refl _⟩
  have hS₁ := hm₀.lines pre
  have hS := hm₀.lines (pre ++ t :: post)
  have f₁ := congrArg Prod.fst (lines_frozen pre hm₀)
  have f := congrArg Prod.fst (lines_frozen (pre ++ t :: post) hm₀)
  have hhome₁ := lines_home hm₀ rfl pre hh₀
  rw [h₁] at hS₁ f₁ hhome₁
  rw [h] at hS f
  have hax₁ : m₁.axes = xyz := f₁
  have hax : m.axes = xyz := f
  simp only at hS₁ hS hhome₁
  rw [readLines_append, h₁] at h
  have h' : Machine.andThen (m₁.processStr t) (fun m => readLines m post) = (m, none) := h
  rcases hz : m₁.processStr t with ⟨m₂, _ | e⟩
  · have hb : m₁.processBlock l.block = (m₂, none) := by
      unfold processStr at hz; rw [hl] at hz; exact hz
    rw [hz] at h'
    have h'' : readLines m₂ post = (m, none) := h'
    have hlev := (line_level hS₁ hax₁ hhome₁ hl (by rw [hb]) xy q hq).2
    rw [hb] at hlev
    have hS₂ := hS₁.str t
    have p₂ := path_str hS₁.wf t
    rw [hz] at hS₂ p₂
    have hgrow := (lines_grow post hS₂.wf .Z (by rw [p₂.frame.axes, hax₁]; decide)).2
    rw [h''] at hgrow
    have hgrow' : (m₂.rangeMax.val .Z : ℝ) ≤ m.rangeMax.val .Z := by exact_mod_cast hgrow
    refine ⟨m.rangeMax.val .Z - m.sysOff .Z - m.state.offset.val .Z, ?_, ?_⟩
    · unfold NormOpts.safeHeight
      rw [hsf, abs2work_sup m hS.wf (not_badSys hS.dict) _ hS.wf.hi]
      have : Axis.Z ∈ m.rangeMax.axes := hS.wf.hi (by rw [hax]; decide)
      simp only [Position.get, this, if_true]
    · push_cast
      have e : q .Z ≤ (m₂.rangeMax.val .Z : ℝ) := hlev
      linarith
  · rw [hz] at h'; cases h'

/-! ## Instances -/

/-- What the kernel checks of a line with a single arc `g`, at X-1, in the plane `pl`. -/
def upCheck (m : Machine) (l : Line) (g : GCode) (pl : Pl) : Bool :=
  decide (m.blockModalGcodes l.block = .ok [g]) && decide ((m.mode 2).map GCode.cls = some pl.cls) &&
    decide ((m.mode 3).map GCode.cls = some .absoluteDistanceMode) && decide ((m.mode 4).map GCode.cls = none) &&
    decide ([Axis.X, .Y, .Z].map (fun a => m.state.offset.val a + m.sysOff a) = [0, 0, 0]) &&
    decide (m.pos.map (fun p => (p.val .X, p.val .Y, p.val .Z)) = .ok (-1, 0, 0))

theorem up_spec {m : Machine} {l : Line} {g : GCode} {pl : Pl} (h : upCheck m l g pl = true) :
    m.blockModalGcodes l.block = .ok [g] ∧ (m.mode 2).map GCode.cls = some pl.cls ∧ (m.mode 3).map GCode.cls = some .absoluteDistanceMode ∧
    (m.mode 4).map GCode.cls = none ∧ (∀ a ∈ xyz, (m.state.offset.val a : ℝ) + m.sysOff a = 0) ∧ ∃ p, m.pos = .ok p ∧ p.vector = ⟨-1, 0, 0⟩ := by
  unfold upCheck at h
  simp only [Bool.and_eq_true, decide_eq_true_eq] at h
  obtain ⟨⟨⟨⟨⟨h1, h2⟩, h3⟩, h4⟩, h5⟩, h6⟩ := h
  simp only [List.map_cons, List.map_nil, List.cons.injEq, and_true] at h5
  refine ⟨h1, h2, h3, h4, ?_, ?_⟩
  · intro a ha
    rcases mem_xyz ha with rfl | rfl | rfl
    · exact_mod_cast h5.1
    · exact_mod_cast h5.2.1
    · exact_mod_cast h5.2.2
  · cases hp : m.pos with
    | error e => rw [hp] at h6; cases h6
    | ok p =>
      rw [hp] at h6
      have := Except.ok.inj h6
      simp only [Prod.mk.injEq] at this
      refine ⟨p, rfl, ?_⟩
      unfold Position.vector
      rw [this.1, this.2.1, this.2.2]
      norm_num

/-- The text is that of a line satisfying `p`. -/
def lineIs (t : List Char) (p : Line → Bool) : Bool :=
  match Line.ofText t with
  | .ok l => p l
  | .error _ => false

/-- An arc from X-1 to X1 about X0, in the plane ZX. -/
def upArc : GCode := ⟨.arcMoveCCW, ⟨'G', .num 3⟩, [⟨'X', .num 1⟩, ⟨'I', .num 1⟩], false⟩

/-- A helix from X-1 to X1 and Z3 about X0, in the plane XY. -/
def riseArc : GCode := ⟨.arcMoveCW, ⟨'G', .num 2⟩, [⟨'X', .num 1⟩, ⟨'I', .num 1⟩, ⟨'Z', .num 3⟩], false⟩

/-- The half turn in the plane ZX goes over Z1. -/
theorem up_passes {m : Machine} {l : Line} (h : upCheck m l upArc zx = true) : ∃ q : Axis → ℝ, LinePasses m l zx q ∧ q .Z = 1 := by
  obtain ⟨h1, h2, h3, h4, h5, p, h6, h7⟩ := up_spec h
  have hg : goalOf m upArc ⟨-1, 0, 0⟩ = ⟨1, 0, 0⟩ := by
    unfold goalOf wordTo
    rw [h3]
    simp [upArc, GCode.num?, GCode.param, Word.num]
  have hc : centreOf m upArc ⟨-1, 0, 0⟩ = ⟨0, 0, 0⟩ := by
    unfold centreOf centreWord
    rw [h4]
    simp [upArc, GCode.num?, GCode.param, Word.num]
  have hS : zx.coord ⟨-1, 0, 0⟩ = -Complex.I := by apply Complex.ext <;> simp [Pl.coord]
  have hE : zx.coord ⟨1, 0, 0⟩ = Complex.I := by apply Complex.ext <;> simp [Pl.coord]
  have hO : zx.coord ⟨0, 0, 0⟩ = 0 := by apply Complex.ext <;> simp [Pl.coord]
  refine ⟨fun a => (⟨0, 0, 1⟩ : V3).at a, ⟨[], [], upArc, p, h1, by decide +kernel, h6, ?_⟩, rfl⟩
  rw [h7]
  show PassesArc m upArc zx _ _
  refine ⟨.inl h2, 0, -Real.pi, 1 / 2, ⟨0, 0, 1⟩, by norm_num, by norm_num, ?_, ?_, ?_, ?_, ?_, ?_, ?_, ?_⟩
  · rw [hg, hS, hE]
    unfold turned
    rw [show -((((1 : ℝ) * -Real.pi : ℝ) : ℂ) * Complex.I) = Real.pi * Complex.I by push_cast; ring, Complex.exp_pi_mul_I]
    ring
  · intro h; exact absurd h (by decide +kernel)
  · exact fun _ => ⟨by linarith [Real.pi_pos], by linarith [Real.pi_pos]⟩
  · intro y hy; exact absurd hy (by simp [upArc, GCode.num?, GCode.param])
  · intro _ _; rw [hc, hO]
  · rw [hS]
    unfold turned
    rw [show -((((1 / 2 : ℝ) * -Real.pi : ℝ) : ℂ) * Complex.I) = (Real.pi / 2) * Complex.I by push_cast; ring, Complex.exp_pi_div_two_mul_I]
    apply Complex.ext <;> simp [Pl.coord]
  · rw [hg]; simp [Pl.height]
  · intro a ha; rw [h5 a ha, zero_add]

/-- The helix in the plane XY is at Z1.5 half way. -/
theorem rise_point {m : Machine} {l : Line} (h : upCheck m l riseArc xy = true) : ∃ (p : Position) (q : Axis → ℝ), m.pos = .ok p ∧
    PassesArc m riseArc xy p.vector q ∧ q .Z = 3 / 2 := by
  obtain ⟨h1, h2, h3, h4, h5, p, h6, h7⟩ := up_spec h
  have hg : goalOf m riseArc ⟨-1, 0, 0⟩ = ⟨1, 0, 3⟩ := by
    unfold goalOf wordTo
    rw [h3]
    simp [riseArc, GCode.num?, GCode.param, Word.num]
  have hc : centreOf m riseArc ⟨-1, 0, 0⟩ = ⟨0, 0, 0⟩ := by
    unfold centreOf centreWord
    rw [h4]
    simp [riseArc, GCode.num?, GCode.param, Word.num]
  have hS : xy.coord ⟨-1, 0, 0⟩ = -1 := by apply Complex.ext <;> simp [Pl.coord]
  have hE : xy.coord ⟨1, 0, 3⟩ = 1 := by apply Complex.ext <;> simp [Pl.coord]
  have hO : xy.coord ⟨0, 0, 0⟩ = 0 := by apply Complex.ext <;> simp [Pl.coord]
  refine ⟨p, fun a => (⟨0, 1, 3 / 2⟩ : V3).at a, h6, ?_, rfl⟩
  rw [h7]
  refine ⟨.inl h2, 0, Real.pi, 1 / 2, ⟨0, 1, 3 / 2⟩, by norm_num, by norm_num, ?_, ?_, ?_, ?_, ?_, ?_, ?_, ?_⟩
  · rw [hg, hS, hE]
    unfold turned
    rw [show -((((1 : ℝ) * Real.pi : ℝ) : ℂ) * Complex.I) = -(Real.pi * Complex.I) by push_cast; ring, Complex.exp_neg, Complex.exp_pi_mul_I]
    norm_num
  · exact fun _ => ⟨Real.pi_pos, by linarith [Real.pi_pos]⟩
  · intro h; exact absurd h (by decide +kernel)
  · intro y hy; exact absurd hy (by simp [riseArc, GCode.num?, GCode.param])
  · intro _ _; rw [hc, hO]
  · rw [hS]
    unfold turned
    rw [show -((((1 / 2 : ℝ) * Real.pi : ℝ) : ℂ) * Complex.I) = -((Real.pi / 2) * Complex.I) by push_cast; ring, Complex.exp_neg,
      Complex.exp_pi_div_two_mul_I]
    apply Complex.ext <;> simp [Pl.coord]
  · rw [hg]; simp [Pl.height]; norm_num
  · intro a ha; rw [h5 a ha, zero_add]

theorem str_of {m : Machine} {t : List Char} {l : Line} {z : MRes} (h : Line.ofText t = .ok l) (hz : m.processBlock l.block = z) :
    m.processStr t = z := by
  unfold processStr; rw [h]; exact hz

theorem rise_passes {m : Machine} {l : Line} (h : upCheck m l riseArc xy = true) : ∃ q : Axis → ℝ, LinePasses m l xy q ∧ q .Z = 3 / 2 := by
  obtain ⟨p, q, h1, h2, h3⟩ := rise_point h
  exact ⟨q, ⟨[], [], riseArc, p, (up_spec h).1, by decide +kernel, h1, h2⟩, h3⟩

/-- The helix, executed at X-1: half way it is at Z1.5, within what is recorded. -/
example : let m := (newNull.processStr "G90 G17 G1 F100 X-1".toList).1
    ∃ (p : Position) (q : Axis → ℝ), m.pos = .ok p ∧ PassesArc m riseArc xy p.vector q ∧ q .Z = 3 / 2 ∧
      3 / 2 ≤ ((m.process riseArc).1.rangeMax.val .Z : ℝ) := by
  intro m
  have hck : lineIs "G2 X1 I1 Z3".toList (fun l => upCheck m l riseArc xy) = true := by decide +kernel
  have hm : Sound m := (reader_null xyz).sound.str _
  have hpath := path_str (reader_null xyz).sound.wf "G90 G17 G1 F100 X-1".toList
  unfold lineIs at hck
  cases hl : Line.ofText "G2 X1 I1 Z3".toList with
  | error e => rw [hl] at hck; cases hck
  | ok l =>
    rw [hl] at hck
    obtain ⟨p, q, h1, h2, h3⟩ := rise_point hck
    obtain ⟨e1, e2, -⟩ := effective_ok hl hm.ok hm.named (up_spec hck).1
    have := C120_arc hm hpath.frame.axes (home_along hpath rfl home_null) riseArc (e2 _ (by simp)) (e1 _ (by simp)) (by decide +kernel) p h1 xy q h2
    exact ⟨p, q, h1, h2, h3, h3 ▸ this.2⟩

/-- A helix in the plane XY, then another line. -/
def riseFile : List (List Char) := ["G90 G17 G1 F100 X-1", "G2 X1 I1 Z3", "G1 X2"].map String.toList

/-- The machine before the third line. -/
def riseSample : Machine := ((newNull.processStr "G90 G17 G1 F100 X-1".toList).1.processStr "G2 X1 I1 Z3".toList).1

theorem riseSample_croppable : Croppable riseSample .Z := by
  have hck : (riseSample.rangeMax.val .Z, riseSample.absPos.val .X, riseSample.absPos.val .Y, riseSample.absPos.val .Z) =
      (3, 1, 0, 3) ∧ riseSample.mode.gcodes = [⟨.arcMoveCW, ⟨'G', .num 2⟩, [], false⟩, ⟨.selectXYPlane, ⟨'G', .num 17⟩, [], false⟩,
      ⟨.absoluteDistanceMode, ⟨'G', .num 90⟩, [], false⟩, ⟨.feedRate, ⟨'F', .num 100⟩, [], false⟩] ∧ riseSample.mode 202 = none ∧
      normalOf riseSample.mode = some .Z ∧ riseSample.incremental = false := by decide +kernel
  obtain ⟨hv, hg, h0, hpl, hi⟩ := hck
  simp only [Prod.mk.injEq] at hv
  obtain ⟨v1, v2, v3, v4⟩ := hv
  have hS : Sound riseSample := ((reader_null xyz).sound.str _).str _
  have hw : ∀ k g, riseSample.mode k = some g → g ∈ riseSample.mode.gcodes := fun k g hk =>
    (mem_gcodes _ g).2 ⟨k, group_named _ _ (hS.ok k g hk).1, hk⟩
  refine ⟨hpl, ⟨3, 0, by omega, by norm_num, by rw [v1]; norm_num⟩, ?_, ?_, ?_, ?_, hi⟩
  · intro a ha
    rcases mem_xyz ha with rfl | rfl | rfl
    · exact ⟨1, 0, by omega, by norm_num, by rw [v2]; norm_num⟩
    · exact ⟨0, 0, by omega, by norm_num, by rw [v3]; norm_num⟩
    · exact ⟨3, 0, by omega, by norm_num, by rw [v4]; norm_num⟩
  · intro k g hk w hwm
    have := hw k g hk
    rw [hg] at this
    simp only [List.mem_cons, List.not_mem_nil, or_false] at this
    rcases this with rfl | rfl | rfl | rfl <;> simp only [List.mem_cons, List.not_mem_nil, or_false] at hwm <;> subst hwm
    · exact ⟨⟨2, 0, by omega, by omega, by simp⟩, by decide, fun h => absurd h (by decide)⟩
    · exact ⟨⟨17, 0, by omega, by omega, by simp⟩, by decide, fun h => absurd h (by decide)⟩
    · exact ⟨⟨90, 0, by omega, by omega, by simp⟩, by decide, fun h => absurd h (by decide)⟩
    · exact ⟨⟨100, 0, by omega, by norm_num, by simp⟩, by decide, fun h => absurd h (by decide)⟩
  · intro g s _ hk'
    rw [h0] at hk'; cases hk'
  · intro g hk
    have := hw 1 g hk
    rw [hg] at this
    simp only [List.mem_cons, List.not_mem_nil, or_false] at this
    rcases this with rfl | rfl | rfl | rfl <;> decide

/-- The steps of the file of the helix: the helix passes Z1.5, and the first move printed when the file is cropped from line 3
goes no lower. -/
example : ∃ (ss : List CropStep) (r s : CropStep) (q : Axis → ℝ), CropTrace 0 newNull riseFile ss ∧ r ∈ ss ∧ s ∈ ss ∧ r.n < s.n ∧
    LinePasses r.before r.line xy q ∧ q .Z = 3 / 2 ∧ ∃ (pre : List (List Char)) (up over down : List Char) (M₀ M₁ : Machine),
      cropPreamble s.before.copy = (pre ++ [up, over, down, []], none) ∧ readLines newNull pre = (M₀, none) ∧
      M₀.processStr up = (M₁, none) ∧ 3 / 2 ≤ (M₁.absPos.val .Z : ℝ) := by
  have hck : (traceB newNull riseFile && lineIs "G2 X1 I1 Z3".toList (fun l => upCheck (newNull.processStr "G90 G17 G1 F100 X-1".toList).1 l riseArc xy)
    && !newNull.incremental) = true := by
    decide +kernel
  simp only [Bool.and_eq_true, Bool.not_eq_true'] at hck
  obtain ⟨⟨c1, c2⟩, c3⟩ := hck
  obtain ⟨ss, h⟩ := trace_exists riseFile 0 newNull c1
  obtain ⟨s1, s2, s3, rfl, b1, b2, b3, n1, n2, n3, l2⟩ : ∃ s1 s2 s3 : CropStep, ss = [s1, s2, s3] ∧ s1.before = newNull ∧
      s2.before = (newNull.processStr "G90 G17 G1 F100 X-1".toList).1 ∧ s3.before = riseSample ∧ s1.n = 1 ∧ s2.n = 2 ∧ s3.n = 3 ∧
      Line.ofText "G2 X1 I1 Z3".toList = .ok s2.line := by
    cases h with
    | cons h1 h2 h3 h4 =>
      cases h4 with
      | cons k1 k2 k3 k4 =>
        cases k4 with
        | cons j1 j2 j3 j4 =>
          cases j4
          refine ⟨_, _, _, rfl, rfl, ?_, ?_, rfl, rfl, rfl, k1⟩
          · rw [str_of h1 h2]
          · unfold riseSample
            rw [str_of h1 h2, str_of k1 k2]
  have hup : upCheck s2.before s2.line riseArc xy = true := by
    unfold lineIs at c2
    rw [l2] at c2
    rw [b2]; exact c2
  obtain ⟨q, hq, hz⟩ := rise_passes hup
  obtain ⟨pre, up, over, down, M₀, M₁, M₂, a1, a2, a3, -, a4⟩ := C120_crop h s3 (by simp) xy (b3 ▸ riseSample_croppable) newNull new_clear
    (fun _ => c3)
  have := (a4 s2 (by simp) (by omega) q hq).1
  exact ⟨_, s2, s3, q, h, by simp, by simp, by omega, hq, hz, pre, up, over, down, M₀, M₁, a1, a2, a3, hz ▸ this⟩

/-- An arc in the plane ZX, and back to the plane XY. -/
def upFile : List (List Char) := ["G90 G18 G1 F100 X-1", "G3 X1 I1", "G17", "G1 X2"].map String.toList

/-- **C120**: arcs that turn about another axis are not in what is recorded: cropped from line 4, this file has the tool at Z1 in
the removed lines, yet the lines printed travel at Z0. -/
theorem C120_bulge_refuted : ∃ (ss : List CropStep) (r s : CropStep) (q : Axis → ℝ) (out : List (List Char)) (M : Machine),
    CropTrace 0 newNull upFile ss ∧ r ∈ ss ∧ s ∈ ss ∧ r.n < s.n ∧ normalOf s.before.mode = some .Z ∧ LinePasses r.before r.line zx q ∧
    q .Z = 1 ∧ cropPreamble s.before.copy = (out, none) ∧ readLines newNull out = (M, none) ∧ M.rangeMax.val .Z = 0 := by
  let m₁ := (newNull.processStr "G90 G18 G1 F100 X-1".toList).1
  let m₃ := ((m₁.processStr "G3 X1 I1".toList).1.processStr "G17".toList).1
  have hck : (traceB newNull upFile && lineIs "G3 X1 I1".toList (fun l => upCheck m₁ l upArc zx) &&
      decide (normalOf m₃.mode = some .Z) && (cropPreamble m₃.copy).2.isNone &&
      (let z := readLines newNull (cropPreamble m₃.copy).1; z.2.isNone && decide (z.1.rangeMax.val .Z = 0))) = true := by
    decide +kernel
  simp only [Bool.and_eq_true, decide_eq_true_eq, Option.isNone_iff_eq_none] at hck
  obtain ⟨⟨⟨⟨c1, c2⟩, c3⟩, c4⟩, c5, c6⟩ := hck
  obtain ⟨ss, h⟩ := trace_exists upFile 0 newNull c1
  obtain ⟨s1, s2, s3, s4, rfl, b2, b4, n2, n4, l2⟩ : ∃ s1 s2 s3 s4 : CropStep, ss = [s1, s2, s3, s4] ∧ s2.before = m₁ ∧ s4.before = m₃ ∧
      s2.n = 2 ∧ s4.n = 4 ∧ Line.ofText "G3 X1 I1".toList = .ok s2.line := by
    cases h with
    | cons h1 h2 h3 h4 =>
      cases h4 with
      | cons k1 k2 k3 k4 =>
        cases k4 with
        | cons j1 j2 j3 j4 =>
          cases j4 with
          | cons i1 i2 i3 i4 =>
            cases i4
            have e1 := str_of h1 h2
            refine ⟨_, _, _, _, rfl, ?_, ?_, rfl, rfl, k1⟩
            · show _ = (newNull.processStr "G90 G18 G1 F100 X-1".toList).1
              rw [e1]
            · show _ = (((newNull.processStr "G90 G18 G1 F100 X-1".toList).1.processStr "G3 X1 I1".toList).1.processStr "G17".toList).1
              rw [e1, str_of k1 k2, str_of j1 j2]
  have hup : upCheck s2.before s2.line upArc zx = true := by
    unfold lineIs at c2
    rw [l2] at c2
    rw [b2]; exact c2
  obtain ⟨q, hq, hz⟩ := up_passes hup
  exact ⟨_, s2, s4, q, (cropPreamble m₃.copy).1, (readLines newNull (cropPreamble m₃.copy).1).1, h, by simp, by simp, by omega, b4 ▸ c3, hq, hz,
    by rw [b4]; exact Prod.ext rfl c4, Prod.ext rfl c5, c6⟩

/-- The helix passes Z1.5; the safe height is no lower. -/
example : ∃ (q : Axis → ℝ) (l : Line), LinePasses (newNull.processStr "G90 G17 G1 F100 X-1".toList).1 l xy q ∧ q .Z = 3 / 2 ∧
    ∃ z : ℚ, finishOpts.safeHeight (readLines (finishOpts.machine Mode.null) riseFile).1 = .ok z ∧ 3 / 2 ≤ (z : ℝ) := by
  have hck : (lineIs "G2 X1 I1 Z3".toList (fun l => upCheck (newNull.processStr "G90 G17 G1 F100 X-1".toList).1 l riseArc xy) &&
      (readLines newNull riseFile).2.isNone && (newNull.processStr "G90 G17 G1 F100 X-1".toList).2.isNone &&
      (let m := (readLines newNull riseFile).1; decide (m.state.offset.val .Z + m.sysOff .Z = 0))) = true := by decide +kernel
  simp only [Bool.and_eq_true, decide_eq_true_eq, Option.isNone_iff_eq_none] at hck
  obtain ⟨⟨⟨c1, c2⟩, c3⟩, c4⟩ := hck
  unfold lineIs at c1
  cases hl : Line.ofText "G2 X1 I1 Z3".toList with
  | error e => rw [hl] at c1; cases c1
  | ok l =>
    rw [hl] at c1
    obtain ⟨q, hq, hz⟩ := rise_passes c1
    obtain ⟨z, k1, k2⟩ := C120_safe finishOpts rfl Mode.null (reader_null xyz).sound ["G90 G17 G1 F100 X-1".toList] ["G1 X2".toList]
      "G2 X1 I1 Z3".toList l hl (newNull.processStr "G90 G17 G1 F100 X-1".toList).1 (readLines newNull riseFile).1
      (by
        show Machine.andThen (newNull.processStr "G90 G17 G1 F100 X-1".toList) (fun m => readLines m []) = _
        generalize newNull.processStr "G90 G17 G1 F100 X-1".toList = z at c3
        obtain ⟨z, _ | e⟩ := z
        · rfl
        · cases c3) (Prod.ext rfl c2) q hq
    refine ⟨q, l, hq, hz, z, k1, ?_⟩
    have c4' : (((readLines newNull riseFile).1.state.offset.val .Z : ℚ) : ℝ) + (readLines newNull riseFile).1.sysOff .Z = 0 := by exact_mod_cast c4
    rw [c4', zero_add, hz] at k2
    exact k2

/-- **C120**: nor does the safe height take such arcs into account: after the half turn over Z1 in the plane ZX it is Z0. -/
theorem C120_safe_refuted : ∃ (q : Axis → ℝ) (l : Line), Line.ofText "G3 X1 I1".toList = .ok l ∧
    LinePasses (newNull.processStr "G90 G18 G1 F100 X-1".toList).1 l zx q ∧ q .Z = 1 ∧
    (({ zeroXY := true, rmComments := true, rmBlanks := true } : NormOpts).run 0 Mode.null upFile).out.map String.ofList =
      ["G90 G18 G01 X-1 F100", "G03 I1 X1", "G17", "G01 X2", "G00 Z0", "G00 X0 Y0"] := by
  have hck : lineIs "G3 X1 I1".toList (fun l => upCheck (newNull.processStr "G90 G18 G1 F100 X-1".toList).1 l upArc zx) = true ∧
    (({ zeroXY := true, rmComments := true, rmBlanks := true } : NormOpts).run 0 Mode.null upFile).out.map String.ofList =
      ["G90 G18 G01 X-1 F100", "G03 I1 X1", "G17", "G01 X2", "G00 Z0", "G00 X0 Y0"] := by decide +kernel
  obtain ⟨c1, c2⟩ := hck
  unfold lineIs at c1
  cases hl : Line.ofText "G3 X1 I1".toList with
  | error e => rw [hl] at c1; cases c1
  | ok l =>
    rw [hl] at c1
    obtain ⟨q, hq, hz⟩ := up_passes c1
    exact ⟨q, l, rfl, hq, hz, c2⟩

end Pygcode
