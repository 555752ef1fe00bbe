import Verif.Lemmas.Box
import Verif.Props.NormArcProgram
import Verif.Props.NormArcSample

/-!
# The space that a linearized program takes (C119)
-/

namespace Pygcode
open Props Machine Spec Pl

/-! ## Specification -/

/-- The range recorded by `b`, widened by `δ` on all sides, has the place `P` (in machine coordinates) in it. -/
def Records (b : Machine) (δ : ℝ) (P : Axis → ℝ) : Prop :=
  ∀ a ∈ xyz, (b.rangeMin.val a : ℝ) - δ ≤ P a ∧ P a ≤ b.rangeMax.val a + δ

/-- Where the helix of centre `c` and turn `A` from `s` to the height `top` is at the time `t`, in machine coordinates, for a
machine with the offsets of `m`. -/
noncomputable def helixPlace (m : Machine) (s : V3) (top : ℝ) (c : ℂ) (A t : ℝ) (a : Axis) : ℝ :=
  (m.state.offset.val a : ℝ) + m.sysOff a + match a with
    | .X => (turned c (xy.coord s) A t).re
    | .Y => (turned c (xy.coord s) A t).im
    | .Z => s.z + t * (top - s.z)
    | _ => 0

/-! ## Proof -/

theorem lines_record (ts : List (List Char)) : ∀ {m : Machine}, m.WF → ∀ a ∈ m.axes,
    (readLines m ts).1.rangeMin.val a ≤ m.rangeMin.val a ∧ m.rangeMax.val a ≤ (readLines m ts).1.rangeMax.val a ∧
      (m.rangeMin.val a ≤ m.absPos.val a ∧ m.absPos.val a ≤ m.rangeMax.val a →
        (readLines m ts).1.rangeMin.val a ≤ (readLines m ts).1.absPos.val a ∧
          (readLines m ts).1.absPos.val a ≤ (readLines m ts).1.rangeMax.val a) := by
  induction ts with
  | nil => exact fun _ a _ => ⟨le_refl _, le_refl _, id⟩
  | cons t ts ih =>
    intro m hm a ha
    have hp := path_calls [.str t] m hm (by simp [Call.OK])
    have hr : Call.runAll m [.str t] = (m.processStr t).1 := by simp [Call.runAll, Call.run]
    rw [hr] at hp
    have h1 := path_low hp a ha
    have h2 := path_high hp a ha
    have h3 := path_last hp
    have h4 : m.rangeMin.val a ≤ m.absPos.val a ∧ m.absPos.val a ≤ m.rangeMax.val a →
        (m.processStr t).1.rangeMin.val a ≤ (m.processStr t).1.absPos.val a ∧
          (m.processStr t).1.absPos.val a ≤ (m.processStr t).1.rangeMax.val a := by
      intro hw
      rcases List.mem_cons.1 (List.getLast_mem (List.cons_ne_nil m.absPos (Call.visitedAll m [.str t]))) with e | e
      · rw [h3, e]
        exact ⟨(h1.2 (.inl rfl)).trans hw.1, hw.2.trans (h2.2 (.inl rfl))⟩
      · rw [h3]
        exact ⟨h1.2 (.inr ⟨_, e, rfl⟩), h2.2 (.inr ⟨_, e, rfl⟩)⟩
    unfold readLines Machine.andThen
    have hwf := hp.wf hm
    have hax := hp.frame.axes
    have h5 := h1.2 (.inl rfl)
    have h6 := h2.2 (.inl rfl)
    generalize m.processStr t = r at h4 hwf hax h5 h6
    obtain ⟨r, _ | e⟩ := r
    · obtain ⟨k1, k2, k3⟩ := ih hwf a (by rw [hax]; exact ha)
      exact ⟨k1.trans h5, h6.trans k2, fun h => k3 (h4 h)⟩
    · exact ⟨h5, h6, h4⟩

/-- Where a reader is after the first lines is in the range recorded in the end. -/
theorem prefix_record {m : Machine} (hm : Reader m) {us vs : List (List Char)} (h : us <+: vs) {b₁ b : Machine}
    (h₁ : readLines m us = (b₁, none)) (hb : readLines m vs = (b, none)) (a : Axis) (ha : a ∈ m.axes) :
    b.rangeMin.val a ≤ b₁.absPos.val a ∧ b₁.absPos.val a ≤ b.rangeMax.val a := by
  obtain ⟨ws, rfl⟩ := h
  rw [readLines_append, h₁] at hb
  have hb' : readLines b₁ ws = (b, none) := hb
  have hs := hm.sound.lines us
  have hf := congrArg Prod.fst (lines_frozen us hm.sound)
  obtain ⟨-, -, k1⟩ := lines_record us hm.wf a ha
  rw [h₁] at hs hf k1
  obtain ⟨k2, k3, -⟩ := lines_record ws hs.wf a (by rw [show b₁.axes = m.axes from hf]; exact ha)
  rw [hb'] at k2 k3
  obtain ⟨k4, k5⟩ := k1 (hm.within a ha)
  exact ⟨k2.trans k4, k5.trans k3⟩

/-- Between a start at 0 and an end at 1 there is a step across any time. -/
theorem step_across (F : ℕ → ℝ) (T : ℝ) (N : ℕ) (hN : 0 < N) (h0 : F 0 ≤ T) (h1 : T ≤ F N) :
    ∃ n < N, ∃ t : ℝ, 0 ≤ t ∧ t ≤ 1 ∧ F n + t * (F (n + 1) - F n) = T := by
  have key : ∃ n < N, F n ≤ T ∧ T ≤ F (n + 1) := by
    induction N with
    | zero => exact absurd hN (lt_irrefl _)
    | succ N ih =>
      by_cases h : T ≤ F N ∧ 0 < N
      · obtain ⟨n, hn, h'⟩ := ih h.2 h.1
        exact ⟨n, hn.trans (Nat.lt_succ_self _), h'⟩
      · refine ⟨N, Nat.lt_succ_self _, ?_, h1⟩
        rcases Nat.eq_zero_or_pos N with rfl | hp
        · exact h0
        · exact (not_le.1 (fun hc => h ⟨hc, hp⟩)).le
  obtain ⟨n, hn, ha, hb⟩ := key
  refine ⟨n, hn, ?_⟩
  rcases (ha.trans hb).eq_or_lt with he | hl
  · exact ⟨0, le_refl _, zero_le_one, by rw [zero_mul, add_zero]; exact le_antisymm ha (he ▸ hb)⟩
  · have hd : 0 < F (n + 1) - F n := sub_pos.2 hl
    refine ⟨(T - F n) / (F (n + 1) - F n), div_nonneg (by linarith) hd.le, (div_le_one hd).2 (by linarith), ?_⟩
    rw [div_mul_cancel₀ _ hd.ne']
    ring

theorem lineTime_ends (am : ArcMethod) (N : ℕ) (hN : 0 < N) : lineTime am N 0 = 0 ∧ lineTime am N N = 1 := by
  have h : (N : ℝ) ≠ 0 := Nat.cast_ne_zero.2 hN.ne'
  cases am <;> simp [lineTime, h, hN.ne']

/-- A machine that keeps step with a helix records it. -/
theorem KeepsStep.records {m : Machine} (hm : Reader m) (hax : m.axes = xyz) {heads : ℕ → List (List Char)} {N : ℕ} (hN : 0 < N)
    {am : ArcMethod} {s : V3} {top : ℝ} {c : ℂ} {A hz hp : ℝ} (h : KeepsStep m heads N am s top c A hz hp) (hzp : hz ≤ hp)
    {m₂ : Machine} (hst : ∀ n, (readLines m (heads n)).1.state = m₂.state) {out : List (List Char)}
    (hpre : heads N <+: out) {b : Machine} (hb : readLines m out = (b, none)) (T : ℝ) (h0 : 0 ≤ T) (h1 : T ≤ 1) :
    Records b hp (helixPlace m₂ s top c A T) := by
  obtain ⟨e0, e1⟩ := lineTime_ends am N hN
  obtain ⟨n, hn, t, t0, t1, hT⟩ := step_across (lineTime am N) T N hN (by rw [e0]; exact h0) (by rw [e1]; exact h1)
  have hpr : ∀ k ≤ N, heads k <+: out := by
    intro k hk
    induction hk using Nat.decreasingInduction with
    | self => exact hpre
    | of_succ k hk ih => exact (h k hk).1.trans ih
  obtain ⟨-, -, b₁, b₂, p₁, p₂, u₁, u₂, r1, r2, r3, r4, r5, r6, -, r7⟩ := h n hn
  obtain ⟨k1, k2⟩ := r7 t t0 t1
  rw [hT] at k1 k2
  have hs1 := hst n
  have hs2 := hst (n + 1)
  rw [r1] at hs1
  rw [r4] at hs2
  have hS1 := hm.sound.lines (heads n)
  have hS2 := hm.sound.lines (heads (n + 1))
  rw [r1] at hS1
  rw [r4] at hS2
  have place : ∀ {b₁ : Machine} {p₁ : Position} {u₁ : V3}, Sound b₁ → b₁.state = m₂.state → b₁.pos = .ok p₁ → p₁.vector = u₁ → ∀ a ∈ xyz,
      ((b₁.absPos.val a : ℚ) : ℝ) = ((m₂.state.offset.val a : ℚ) : ℝ) + m₂.sysOff a + u₁.at a := by
    intro b₁ p₁ u₁ hS hs hpos hv a ha
    rw [pos_ok b₁ hS.wf (not_bad hS)] at hpos
    have hso : b₁.sysOff = m₂.sysOff := by funext a; unfold Machine.sysOff; rw [hs]
    have hpv : p₁.val a = b₁.absPos.val a - m₂.sysOff a - m₂.state.offset.val a := by
      rw [← Except.ok.inj hpos, ← hs, ← hso]
    have hu : u₁.at a = ((p₁.val a : ℚ) : ℝ) := by
      rw [← hv]
      rcases mem_xyz ha with rfl | rfl | rfl <;> rfl
    rw [hu, hpv]
    push_cast
    ring
  have hin : ∀ a ∈ xyz, (b.rangeMin.val a : ℝ) ≤ (m₂.state.offset.val a : ℝ) + m₂.sysOff a + (onSegment (u₁, u₂) t).at a ∧
      (m₂.state.offset.val a : ℝ) + m₂.sysOff a + (onSegment (u₁, u₂) t).at a ≤ b.rangeMax.val a := by
    intro a ha
    obtain ⟨a1, a2⟩ := prefix_record hm (hpr n hn.le) r1 hb a (by rw [hax]; exact ha)
    obtain ⟨a3, a4⟩ := prefix_record hm (hpr (n + 1) hn) r4 hb a (by rw [hax]; exact ha)
    have a1' : (b.rangeMin.val a : ℝ) ≤ b₁.absPos.val a := by exact_mod_cast a1
    have a2' : ((b₁.absPos.val a : ℚ) : ℝ) ≤ b.rangeMax.val a := by exact_mod_cast a2
    have a3' : (b.rangeMin.val a : ℝ) ≤ b₂.absPos.val a := by exact_mod_cast a3
    have a4' : ((b₂.absPos.val a : ℚ) : ℝ) ≤ b.rangeMax.val a := by exact_mod_cast a4
    rw [place hS1 hs1 r2 r3 a ha] at a1' a2'
    rw [place hS2 hs2 r5 r6 a ha] at a3' a4'
    have hseg : (onSegment (u₁, u₂) t).at a = (1 - t) * u₁.at a + t * u₂.at a := by
      rcases mem_xyz ha with rfl | rfl | rfl
      · show u₁.x + (u₂.x - u₁.x) * t = (1 - t) * u₁.x + t * u₂.x
        ring
      · show u₁.y + (u₂.y - u₁.y) * t = (1 - t) * u₁.y + t * u₂.y
        ring
      · show u₁.z + (u₂.z - u₁.z) * t = (1 - t) * u₁.z + t * u₂.z
        ring
    rw [hseg]
    constructor <;> nlinarith
  have hdiff : ∀ a ∈ xyz, |(m₂.state.offset.val a : ℝ) + m₂.sysOff a + (onSegment (u₁, u₂) t).at a - helixPlace m₂ s top c A T a| ≤ hp := by
    intro a ha
    unfold helixPlace
    rw [add_sub_add_left_eq_sub]
    rcases mem_xyz ha with rfl | rfl | rfl
    · refine le_trans ?_ ((Complex.abs_re_le_norm _).trans k2)
      rw [Complex.sub_re]
      exact le_of_eq rfl
    · refine le_trans ?_ ((Complex.abs_im_le_norm _).trans k2)
      rw [Complex.sub_im]
      exact le_of_eq rfl
    · exact k1.trans hzp
  intro a ha
  obtain ⟨i1, i2⟩ := hin a ha
  have := abs_le.1 (hdiff a ha)
  constructor <;> linarith [this.1, this.2]

/-- **C119**: a program (lines `pre`, `t` and `post`) that `pygcode-norm --arc_linearize` finishes on, and an arc `g` of line `t` in
the XY plane, which the input reaches at `s`.  The range that a machine records that reads all that was printed has the whole
helix in it that `g` asks for, up to what the method allows and twice the error of a coordinate (`ε` and half a
thousandth) for this arc and for each arc before it. -/
theorem C119_arc (o : NormOpts) (hr : o.rmGcodes = []) (hi : o.rmInvalid = false) (x : ArcOpts) (hon : x.on = true)
    (fl : Floats) (ε : ℚ) (hε0 : 0 ≤ ε) (hε : ε < 1 / 2000) (hfl : FloatsOK ε fl) (fuel : ℕ) (m : Machine) (hm : Reader m)
    (hig : m.ignoreInvalid = false) (hax : m.axes = xyz) (hprec : 0 ≤ x.precision)
    (pre : List (List Char)) (t : List Char) (post : List (List Char))
    (hts : LinesReplace o x fuel m (pre ++ t :: post)) (hd : (o.loopA x fl fuel m (pre ++ t :: post)).status = .done)
    (m₁ : Machine) (h₁ : readLines m pre = (m₁, none)) (l : Line) (hl : Line.ofText t = .ok l) (gs : List GCode)
    (hgs : m₁.blockModalGcodes l.block = .ok gs) (befores afters : List GCode) (g : GCode)
    (hsp : splitGcodes gs .arcMove true = (befores, [g], afters)) (m₂ : Machine) (h₂ : m₁.processAll befores = (m₂, none))
    (hpl : m₂.mode.plane.map GCode.cls = none ∨ m₂.mode.plane.map GCode.cls = some .selectXYPlane)
    (p : Position) (hp : m₂.pos = .ok p) (s : V3) (hs : p.vector = s) (hneq : xy.coord s ≠ arcEndOf m₂ g s) :
    ∃ (am : ArcMethod) (c : ℂ) (A : ℝ) (b : Machine), x.method g.word = .ok am ∧ AsksFor m₂ g s c A ∧
      readLines m (o.loopA x fl fuel m (pre ++ t :: post)).out = (b, none) ∧
      ∀ T, 0 ≤ T → T ≤ 1 → Records b (allowed am x.precision + 2 * (((arcsOf m pre).length + 1) * (ε + 1 / 2000)))
        (helixPlace m₂ s (arcTopOf m₂ g s) c A T) := by
  have hdr := drift_count (η := ε + 1 / 2000) (by linarith) (arcsOf m pre) (le_refl 0)
  rw [zero_add] at hdr
  obtain ⟨am, heads, N, c, A, k1, k2, k3, k4, k5, k6⟩ := program_step o hr hi x hon fl ε hε0 hε hfl fuel m hm.sound hig hax pre t post hts
    hd m₁ h₁ l hl gs hgs befores afters g hsp m₂ h₂ hpl p hp s hs hneq _ hdr
  obtain ⟨-, b, hb, -⟩ := C73_count_partial o hr hi x hon fl ε hε0 hε hfl fuel m hm.sound hig hax _ hts hd
  have e : (((((arcsOf m pre).length : ℚ) * (ε + 1 / 2000) : ℚ) : ℝ) + ((ε : ℝ) + 1 / 2000)) =
      (((arcsOf m pre).length : ℝ) + 1) * ((ε : ℝ) + 1 / 2000) := by
    push_cast; ring
  rw [e] at k5
  refine ⟨am, c, A, b, k1, k4, hb, fun T h0 h1 => k5.records hm hax k2 ?_ k6 k3 hb T h0 h1⟩
  have hal : 0 ≤ allowed am x.precision := by cases am <;> simp only [allowed] <;> linarith
  have hε' : (0 : ℝ) ≤ ε := by exact_mod_cast hε0
  have : 0 ≤ (((arcsOf m pre).length : ℝ) + 1) * ((ε : ℝ) + 1 / 2000) := by positivity
  linarith

/-- **C119**: and it has all places in it where the input is at the end of a line. -/
theorem C119_ends (o : NormOpts) (hr : o.rmGcodes = []) (hi : o.rmInvalid = false) (x : ArcOpts) (hon : x.on = true)
    (fl : Floats) (ε : ℚ) (hε0 : 0 ≤ ε) (hε : ε < 1 / 2000) (hfl : FloatsOK ε fl) (fuel : ℕ) (m : Machine) (hm : Reader m)
    (hig : m.ignoreInvalid = false) (hax : m.axes = xyz) (pre post : List (List Char))
    (hts : LinesReplace o x fuel m (pre ++ post)) (hd : (o.loopA x fl fuel m (pre ++ post)).status = .done) :
    ∃ (m₁ b : Machine), readLines m pre = (m₁, none) ∧ readLines m (o.loopA x fl fuel m (pre ++ post)).out = (b, none) ∧
      Records b ((arcsOf m pre).length * (ε + 1 / 2000)) (fun a => m₁.absPos.val a) := by
  have hdr := drift_count (η := ε + 1 / 2000) (by linarith) (arcsOf m pre) (le_refl 0)
  rw [zero_add] at hdr
  obtain ⟨-, b, hb, -⟩ := C73_count_partial o hr hi x hon fl ε hε0 hε hfl fuel m hm.sound hig hax _ hts hd
  have hdone := hd
  rw [loopA_append] at hd
  obtain ⟨d1, d2, d3⟩ := res_done hd
  obtain ⟨m₁, h₁⟩ : ∃ m₁, readLines m pre = (m₁, none) := by
    obtain ⟨h, -⟩ := C73_count_partial o hr hi x hon fl ε hε0 hε hfl fuel m hm.sound hig hax _ hts hdone
    rw [readLines_append] at h
    rcases hz : readLines m pre with ⟨m₁, _ | e⟩
    · exact ⟨m₁, rfl⟩
    · rw [hz] at h; cases h
  obtain ⟨ht1, -⟩ := linesReplace_append pre post h₁ hts
  obtain ⟨k1, c₁, b₁, k2, k3, k4, -⟩ := loopA_trails o hr hi x hon fl hε0 hε hfl fuel pre (le_refl 0)
    (.refl _ m) (Off.rfl' m) hm.sound hm.sound hm.sound hax hig ht1 d1
  refine ⟨m₁, b, h₁, hb, ?_⟩
  intro a ha
  have hpre : (o.loopA x fl fuel m pre).out <+: (o.loopA x fl fuel m (pre ++ post)).out := by
    rw [loopA_append, d3]
    exact List.prefix_append _ _
  obtain ⟨a1, a2⟩ := prefix_record hm hpre k2 hb a (by rw [hax]; exact ha)
  rw [h₁] at k1
  obtain rfl : m₁ = (o.loopA x fl fuel m pre).m := congrArg Prod.fst k1
  have hdist := abs_le.1 ((k4.dist a).trans hdr)
  rw [← k3.near.abs] at hdist
  have q1 : b.rangeMin.val a - (arcsOf m pre).length * (ε + 1 / 2000) ≤ (o.loopA x fl fuel m pre).m.absPos.val a := by linarith [hdist.1]
  have q2 : (o.loopA x fl fuel m pre).m.absPos.val a ≤ b.rangeMax.val a + (arcsOf m pre).length * (ε + 1 / 2000) := by linarith [hdist.2]
  have q1' : ((b.rangeMin.val a - (arcsOf m pre).length * (ε + 1 / 2000) : ℚ) : ℝ) ≤ (((o.loopA x fl fuel m pre).m.absPos.val a : ℚ) : ℝ) := by
    exact_mod_cast q1
  have q2' : (((o.loopA x fl fuel m pre).m.absPos.val a : ℚ) : ℝ) ≤ ((b.rangeMax.val a + (arcsOf m pre).length * (ε + 1 / 2000) : ℚ) : ℝ) := by
    exact_mod_cast q2
  push_cast at q1' q2'
  exact ⟨q1', q2'⟩

/-! ## Instance -/

/-- A half turn to the right, from X-1 to X1, through Y1. -/
def halfSample : List (List Char) := ["G17 G90", "G1 X-1 F100", "G2 X1 I1"].map String.toList

/-- `G2 X1 I1`. -/
def halfArc : GCode := ⟨.arcMoveCW, ⟨'G', .num 2⟩, [⟨'X', .num 1⟩, ⟨'I', .num 1⟩], false⟩

/-- What the theorem asks of the last line of `halfSample`. -/
def halfCheck (m : Machine) (t : List Char) : Bool :=
  match Line.ofText t with
  | .error _ => false
  | .ok l =>
    match m.blockModalGcodes l.block with
    | .error _ => false
    | .ok gs =>
      match splitGcodes gs .arcMove true with
      | ([], [g], _) =>
        decide (g = halfArc) && !m.incremental && decide (m.mode.plane.map GCode.cls = some .selectXYPlane) &&
          decide ((m.mode 4).map GCode.cls = none) && decide (m.state.offset.val .Y + m.sysOff .Y = 0) &&
          decide (m.pos.map (fun p => (p.val .X, p.val .Y, p.val .Z)) = .ok (-1, 0, 0))
      | _ => false

theorem half_spec {m : Machine} {t : List Char} (h : halfCheck m t = true) : ∃ l gs afters p, Line.ofText t = .ok l ∧
    m.blockModalGcodes l.block = .ok gs ∧ splitGcodes gs .arcMove true = ([], [halfArc], afters) ∧
    m.incremental = false ∧ m.mode.plane.map GCode.cls = some .selectXYPlane ∧
    (m.mode 4).map GCode.cls = none ∧ m.state.offset.val .Y + m.sysOff .Y = 0 ∧
    m.pos = .ok p ∧ p.vector = ⟨-1, 0, 0⟩ := by
  unfold halfCheck at h
  cases hl : Line.ofText t with
  | error e => rw [hl] at h; cases h
  | ok l =>
    rw [hl] at h
    simp only at h
    cases hgs : m.blockModalGcodes l.block with
    | error e => rw [hgs] at h; cases h
    | ok gs =>
      rw [hgs] at h
      simp only at h
      rcases hsp : splitGcodes gs .arcMove true with ⟨befores, mid, afters⟩
      rw [hsp] at h
      rcases befores with - | ⟨bf, befores⟩
      swap
      · cases h
      rcases mid with - | ⟨g, - | ⟨g', mid⟩⟩
      · cases h
      · simp only [Bool.and_eq_true, decide_eq_true_eq, Bool.not_eq_true'] at h
        obtain ⟨⟨⟨⟨⟨rfl, h2⟩, h3⟩, h4⟩, h4'⟩, h5⟩ := h
        cases hp : m.pos with
        | error e => rw [hp] at h5; cases h5
        | ok p =>
          rw [hp] at h5
          have h6 : (p.val .X, p.val .Y, p.val .Z) = (-1, 0, 0) := Except.ok.inj h5
          simp only [Prod.mk.injEq] at h6
          refine ⟨l, gs, afters, p, rfl, hgs, hsp, h2, h3, h4, h4', rfl, ?_⟩
          unfold Position.vector
          rw [h6.1, h6.2.1, h6.2.2]
          norm_num
      · cases h

theorem half_angle {A : ℝ} (h : turned 0 (-1) A 1 = 1) (h0 : 0 < A) (h1 : A < 2 * Real.pi) : A = Real.pi := by
  have e : turned 0 (-1) A 1 = -cw A := by
    unfold turned cw
    push_cast
    ring
  rw [e, cw_eq] at h
  have hre := congrArg Complex.re h
  simp only [Complex.neg_re, Complex.one_re] at hre
  have hc : Real.cos (A - Real.pi) = 1 := by rw [Real.cos_sub_pi]; linarith
  have := (Real.cos_eq_one_iff_of_lt_of_lt (by linarith [Real.pi_pos]) (by linarith [Real.pi_pos])).1 hc
  linarith

/-- A half turn: half of it is a quarter turn. -/
theorem half_turn {A : ℝ} (h : turned 0 (-1) A 1 = 1) (h0 : 0 < A) (h1 : A < 2 * Real.pi) : (turned 0 (-1) A (1 / 2)).im = 1 := by
  have e : turned 0 (-1) A (1 / 2) = -cw (1 / 2 * A) := by
    unfold turned cw
    push_cast
    ring
  rw [e, cw_eq, half_angle h h0 h1, Complex.neg_im]
  show - -Real.sin (1 / 2 * Real.pi) = 1
  rw [neg_neg, show 1 / 2 * Real.pi = Real.pi / 2 by ring, Real.sin_pi_div_two]

/-- **C119**: a machine does not record the space an arc takes: the tool goes through Y1, and reading the arc itself records no
more than Y0, while reading the lines printed for it records Y0.98 at least, however the coordinates have been computed, up to
1/10000. -/
theorem C119_bulge_refuted (fl : Floats) (hfl : FloatsOK (1 / 10000) fl) :
    ∃ a b, readLines newNull halfSample = (a, none) ∧ a.rangeMax.val .Y = 0 ∧
      readLines newNull (expandOpts.loopA arcSampleOpts fl 20 newNull halfSample).out = (b, none) ∧ 0.98 ≤ b.rangeMax.val .Y := by
  obtain ⟨h1, h2⟩ := programB_sound (o := expandOpts) rfl rfl (x := arcSampleOpts) rfl (by norm_num [arcSampleOpts])
    (by norm_num [arcSampleOpts]) (by norm_num) (by norm_num) hfl (fuel := 20) halfSample (m := newNull)
    (reader_null xyz).sound rfl rfl (by decide +kernel)
  have hck : (readLines newNull halfSample).2 = none ∧ (readLines newNull halfSample).1.rangeMax.val .Y = 0 ∧
      (readLines newNull (halfSample.take 2)).2 = none ∧ arcsOf newNull (halfSample.take 2) = [] ∧
      halfCheck (readLines newNull (halfSample.take 2)).1 "G2 X1 I1".toList = true := by decide +kernel
  obtain ⟨l, gs, afters, p, k1, k2, k3, k5, k6, k4, k4', k7, k8⟩ := half_spec hck.2.2.2.2
  have hm₁ : Sound (readLines newNull (halfSample.take 2)).1 := (reader_null xyz).sound.lines _
  have hsplit : halfSample = halfSample.take 2 ++ "G2 X1 I1".toList :: [] := by decide +kernel
  generalize hM : (readLines newNull (halfSample.take 2)).1 = m₁ at *
  have hE : halfArc.arcEnd ⟨-1, 0, 0⟩ false = ⟨1, 0, 0⟩ := by
    simp [halfArc, GCode.arcEnd, GCode.num?, GCode.param, Word.num]
  have e1 : arcEndOf m₁ halfArc ⟨-1, 0, 0⟩ = 1 := by
    rw [← arcEndOf_eq hm₁, k5, hE]; apply Complex.ext <;> simp [Pl.coord]
  have e3 : xy.coord ⟨-1, 0, 0⟩ = -1 := by apply Complex.ext <;> simp [Pl.coord]
  have e5 : arcCentreOf m₁ halfArc ⟨-1, 0, 0⟩ = 0 := by
    unfold arcCentreOf
    rw [k4, if_neg (by decide)]
    apply Complex.ext <;> simp [halfArc, GCode.num?, GCode.param, Word.num]
  have e4 : xy.coord ⟨-1, 0, 0⟩ ≠ arcEndOf m₁ halfArc ⟨-1, 0, 0⟩ := by
    rw [e1, e3]; intro h; have := congrArg Complex.re h; norm_num at this
  have h1' := h1
  have h2' := h2
  rw [hsplit] at h1' h2'
  obtain ⟨am, c, A, b, r1, r2, r3, r4⟩ := C119_arc expandOpts rfl rfl arcSampleOpts rfl fl (1 / 10000)
    (by norm_num) (by norm_num) hfl 20 newNull (reader_null xyz) rfl rfl (by norm_num [arcSampleOpts]) _ _ _ h1' h2' m₁
    (Prod.ext hM hck.2.2.1) l k1 gs k2 [] afters halfArc k3 m₁ rfl (.inr k6) p k7 _ k8 e4
  rw [← hsplit] at r3
  refine ⟨_, b, Prod.ext rfl hck.1, hck.2.1, r3, ?_⟩
  obtain ⟨t1, t2, -, -, t5⟩ := r2
  have hc : c = 0 := by
    rw [← e5]
    exact (t5 (by decide)).fits (by rw [e1, e3, e5]; simp)
  have ham : am = .inside := by
    have : arcSampleOpts.method halfArc.word = .ok .inside := by
      simp [ArcOpts.method, arcSampleOpts, halfArc]
    rw [this] at r1
    exact (Except.ok.inj r1).symm
  rw [e1, e3, hc] at t1
  obtain ⟨t3, t4⟩ := t2 (by decide +kernel)
  have hy := half_turn t1 t3 t4
  obtain ⟨-, q⟩ := r4 (1 / 2) (by norm_num) (by norm_num) .Y (by decide)
  have hq : helixPlace m₁ ⟨-1, 0, 0⟩ (arcTopOf m₁ halfArc ⟨-1, 0, 0⟩) c A (1 / 2) .Y = 1 := by
    unfold helixPlace
    rw [e3, hc]
    simp only
    rw [hy]
    have : ((m₁.state.offset.val .Y + m₁.sysOff .Y : ℚ) : ℝ) = 0 := by rw [k4']; norm_num
    push_cast at this
    linarith
  rw [hq, hck.2.2.2.1, ham] at q
  simp only [allowed, arcSampleOpts, List.length_nil] at q
  have q' : ((0.98 : ℚ) : ℝ) ≤ b.rangeMax.val .Y := by push_cast at q ⊢; linarith
  exact_mod_cast q'

example : ∃ a b, readLines newNull halfSample = (a, none) ∧ a.rangeMax.val .Y = 0 ∧
    readLines newNull (expandOpts.loopA arcSampleOpts floorFloats 20 newNull halfSample).out = (b, none) ∧ 0.98 ≤ b.rangeMax.val .Y :=
  C119_bulge_refuted floorFloats floorFloats_ok

example : ∃ (m₁ b : Machine), readLines newNull (arcSample.take 4) = (m₁, none) ∧
    readLines newNull (expandOpts.loopA arcSampleOpts floorFloats 20 newNull arcSample).out = (b, none) ∧
    Records b ((arcsOf newNull (arcSample.take 4)).length * (((1 / 10000 : ℚ) : ℝ) + 1 / 2000)) (fun a => m₁.absPos.val a) := by
  obtain ⟨h1, h2⟩ := programB_sound (o := expandOpts) rfl rfl (x := arcSampleOpts) rfl (by norm_num [arcSampleOpts])
    (by norm_num [arcSampleOpts]) (by norm_num) (by norm_num) floorFloats_ok (fuel := 20) arcSample (m := newNull)
    (reader_null xyz).sound rfl rfl (by decide +kernel)
  have := C119_ends expandOpts rfl rfl arcSampleOpts rfl floorFloats (1 / 10000) (by norm_num) (by norm_num) floorFloats_ok 20 newNull
    (reader_null xyz) rfl rfl (arcSample.take 4) (arcSample.drop 4) (by rw [List.take_append_drop]; exact h1)
    (by rw [List.take_append_drop]; exact h2)
  rwa [List.take_append_drop] at this

end Pygcode
