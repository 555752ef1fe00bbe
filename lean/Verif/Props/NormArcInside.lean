import Verif.Lemmas.OffBox
import Verif.Props.NormArcBox
import Verif.Props.NormBox

/-!
# The space that a linearized program takes, from outside (C119)
-/

namespace Pygcode
open Props Machine Spec Pl

/-! ## Specification -/

/-- The range recorded by `m` is within `lo` and `hi`, widened by `δ` on all sides. -/
def FitsIn (lo hi : Axis → ℝ) (δ : ℝ) (m : Machine) : Prop :=
  ∀ a ∈ xyz, lo a - δ ≤ m.rangeMin.val a ∧ (m.rangeMax.val a : ℝ) ≤ hi a + δ

/-- Arc `g`, where machine `m` reaches it: in the XY plane, not back to where it starts, and the helix that it asks for is within
`lo` and `hi`. -/
def ArcFits (lo hi : Axis → ℝ) (m : Machine) (g : GCode) : Prop :=
  (m.mode.plane.map GCode.cls = none ∨ m.mode.plane.map GCode.cls = some .selectXYPlane) ∧
    ∀ p, m.pos = .ok p → xy.coord p.vector ≠ arcEndOf m g p.vector ∧ ∀ c A, AsksFor m g p.vector c A → ∀ T, 0 ≤ T → T ≤ 1 →
      ∀ a ∈ xyz, lo a ≤ helixPlace m p.vector (arcTopOf m g p.vector) c A T a ∧
        helixPlace m p.vector (arcTopOf m g p.vector) c A T a ≤ hi a

/-- The same for the arc of a line, if there is one. -/
def LineFits (lo hi : Axis → ℝ) (m : Machine) (t : List Char) : Prop :=
  ∀ l gs befores g afters, Line.ofText t = .ok l → m.blockModalGcodes l.block = .ok gs →
    splitGcodes gs .arcMove true = (befores, [g], afters) → ArcFits lo hi (m.processAll befores).1 g

/-- The same for lines, as they are reached. -/
def LinesFit (lo hi : Axis → ℝ) (m : Machine) : List (List Char) → Prop
  | [] => True
  | t :: ts => LineFits lo hi m t ∧ LinesFit lo hi (m.processStr t).1 ts

/-! ## Proof -/

/-- Is within its range. -/
def Home (m : Machine) : Prop := ∀ a ∈ xyz, m.rangeMin.val a ≤ m.absPos.val a ∧ m.absPos.val a ≤ m.rangeMax.val a

/-- Reading what was printed keeps within. -/
def Confines (lo hi : Axis → ℝ) (δ : ℝ) (b : Machine) (r : NormRes) : Prop :=
  r.status = .done → Home b → FitsIn lo hi δ b → Home (readLines b r.out).1 ∧ FitsIn lo hi δ (readLines b r.out).1

variable {lo hi : Axis → ℝ} {δ : ℝ}

theorem Confines.andThen {cc : List Word} {b : Machine} {τ : ℚ} {r : NormRes} {z : MRes} (hT : Trails cc b τ r z)
    (h : z.2 = none → Confines lo hi δ b r) {f : Machine → NormRes}
    (hf : ∀ c' b', z.2 = none → Behind cc z.1 c' → Off τ c' b' → Sound z.1 → Sound c' → Sound b' → Confines lo hi δ b' (f z.1)) :
    Confines lo hi δ b (r.andThen f) := by
  obtain ⟨out, m, s⟩ := r
  cases s with
  | done =>
    obtain ⟨rfl, c', b', h1, h2, h3, h4, h5, h6⟩ := hT rfl
    intro hd hh hfit
    obtain ⟨k1, k2⟩ := h rfl rfl hh hfit
    simp only at h1 k1 k2
    rw [h1] at k1 k2
    have k3 := hf c' b' rfl h2 h3 h4 h5 h6 hd k1 k2
    show Home (readLines b (out ++ (f m).out)).1 ∧ FitsIn lo hi δ (readLines b (out ++ (f m).out)).1
    rw [readLines_append, h1]
    exact k3
  | raised e => intro hd; cases hd
  | _ => intro hd; cases hd

/-- `c` with the range of `m`. -/
def ranged (c m : Machine) : Machine := { c with rangeMin := m.rangeMin, rangeMax := m.rangeMax }

theorem ranged_behind {cc : List Word} {m c : Machine} (h : Behind cc m c) : Behind cc m (ranged c m) :=
  ⟨⟨h.near.axes, h.near.ignore, h.near.state, h.near.abs, h.near.mode⟩, h.motion⟩

theorem ranged_off {τ : ℚ} {m c b : Machine} (h : Off τ c b) : Off τ (ranged c m) b :=
  ⟨h.axes, h.ignore, h.mode, h.state, h.unit, h.dist⟩

theorem ranged_sound {m c : Machine} (hm : Sound m) (hc : Sound c) (hax : m.axes = c.axes) : Sound (ranged c m) :=
  ⟨⟨hc.wf.abs, hc.wf.absWF, hc.wf.sys, hc.wf.off, hc.wf.offWF, by rw [show (ranged c m).axes = m.axes from hax.symm]; exact hm.wf.lo,
    by rw [show (ranged c m).axes = m.axes from hax.symm]; exact hm.wf.hi⟩, hc.ok, hc.named, hc.noWs, hc.sync, hc.dict⟩

theorem lines_home {b : Machine} (hb : Sound b) (hax : b.axes = xyz) (ts : List (List Char)) (h : Home b) : Home (readLines b ts).1 :=
  fun a ha => (lines_record ts hb.wf a (by rw [hax]; exact ha)).2.2 (h a ha)

/-- A step that prints what does the same, or drills. -/
theorem broad_confines {cc : List Word} {m c b : Machine} {τ : ℚ} (hτ : 0 ≤ τ) (hτδ : (τ : ℝ) ≤ δ) {r : NormRes} {z : MRes} {L : List ℚ}
    (h : Behind cc m c) (hcb : Off τ c b) (hm : Sound m) (hc : Sound c) (hb : Sound b) (hax : m.axes = xyz) (hhome : Home m)
    (hF : Behind cc m (ranged c m) → Sound (ranged c m) → Follows cc (ranged c m) r z)
    (hB : Behind cc m (ranged c m) → Sound (ranged c m) → Broad m (ranged c m) r L)
    (hfit : FitsIn lo hi 0 z.1) (hL : ∀ y ∈ L, lo .Z ≤ (y : ℝ) ∧ (y : ℝ) ≤ hi .Z) : Confines lo hi δ b r := by
  intro hd hhb hfb
  have hbh := ranged_behind h
  have hso := ranged_sound hm hc h.near.axes
  have hbax : b.axes = xyz := hcb.axes.symm.trans (h.near.axes.symm.trans hax)
  refine ⟨lines_home hb hbax _ hhb, ?_⟩
  obtain ⟨rfl, c', h2, h3, h4, h5⟩ := hF hbh hso hd
  have hw := hB hbh hso hd [] (fun a ha => ⟨hhome a (hax ▸ ha), by unfold along; split_ifs <;> rfl, by unfold along; split_ifs <;> rfl⟩)
  rw [h2, List.nil_append] at hw
  have hrax : r.m.axes = xyz := by
    have := congrArg Prod.fst (lines_frozen r.out hso)
    rw [h2] at this
    exact h3.near.axes.trans (this.trans (h.near.axes.symm.trans hax))
  intro a ha
  obtain ⟨-, w1, w2⟩ := hw a (by rw [hrax]; exact ha)
  obtain ⟨k1, k2⟩ := lines_offbox hτ r.out (ranged_off (m := m) hcb) hso hb a (by
    show a ∈ c.axes
    rw [← h.near.axes, hax]; exact ha)
  rw [h2] at k1 k2
  simp only at k1 k2 w1 w2
  obtain ⟨f1, f2⟩ := hfit a ha
  simp only at f1 f2
  obtain ⟨g1, g2⟩ := hfb a ha
  have hal : ∀ y ∈ along L a, lo a ≤ (y : ℝ) ∧ (y : ℝ) ≤ hi a := by
    unfold along
    split_ifs with hz
    · rw [hz]; exact hL
    · simp
  have c1 : lo a ≤ (c'.rangeMin.val a : ℝ) := by
    rcases (leastOf_least (r.m.rangeMin.val a) (along L a)).1 with e | e
    · rw [w1, e]; linarith
    · rw [w1]; exact (hal _ e).1
  have c2 : (c'.rangeMax.val a : ℝ) ≤ hi a := by
    rcases (greatestOf_greatest (r.m.rangeMax.val a) (along L a)).1 with e | e
    · rw [w2, e]; linarith
    · rw [w2]; exact (hal _ e).2
  constructor
  · have k1' : ((min (b.rangeMin.val a) (c'.rangeMin.val a - τ) : ℚ) : ℝ) ≤ ((readLines b r.out).1.rangeMin.val a : ℚ) := by exact_mod_cast k1
    refine le_trans ?_ k1'
    push_cast
    exact le_min g1 (by linarith)
  · have k2' : (((readLines b r.out).1.rangeMax.val a : ℚ) : ℝ) ≤ ((max (b.rangeMax.val a) (c'.rangeMax.val a + τ) : ℚ) : ℝ) := by exact_mod_cast k2
    refine k2'.trans ?_
    push_cast
    exact max_le g2 (by linarith)

/-! ## Arcs -/

theorem linear_visited (gs : List GCode) : ∀ {b : Machine}, b.WF → (∀ g ∈ gs, GOK g ∧ g.cls = .linearMove) → ∀ q ∈ visitedAll b gs,
    ∃ k < gs.length, q = (b.processAll (gs.take (k + 1))).1.absPos := by
  induction gs with
  | nil => intro b _ _ q hq; cases hq
  | cons g gs ih =>
    intro b hb hg q hq
    obtain ⟨g1, g2⟩ := hg g (by simp)
    have hw := (path_process b hb g g1).wf hb
    unfold visitedAll at hq
    rcases List.mem_append.1 hq with hq | hq
    · refine ⟨0, by simp, ?_⟩
      have hone : b.processAll ((g :: gs).take (0 + 1)) = b.process g := by
        simp only [zero_add, List.take_succ_cons, List.take_zero]
        exact processAll_one b g
      rw [hone]
      unfold visited at hq
      rw [Machine.setMode_eq b [g] (by simpa using g1), execSort_single] at hq
      rw [process_eq b g g1]
      have hpr : g.cls.proc = .motion := by rw [g2]; decide +kernel
      simp only at hq
      unfold visitedEffect at hq
      unfold Machine.effect
      rw [hpr] at hq ⊢
      simp only at hq ⊢
      unfold visitedMoves at hq
      have hwm : (b.withMode (List.foldl setIn b.mode [g])) = b.withMode (setIn b.mode g) := rfl
      rw [hwm] at hq
      generalize (b.withMode (setIn b.mode g)).move _ = r at hq ⊢
      obtain ⟨r, _ | e⟩ := r
      · simpa [visitedMoves] using hq
      · cases hq
    · rcases hz : b.process g with ⟨b₁, _ | e⟩
      · rw [hz] at hq hw
        obtain ⟨k, hk, h⟩ := ih hw (fun x hx => hg x (by simp [hx])) q hq
        refine ⟨k + 1, by simpa using hk, ?_⟩
        rw [h, List.take_succ_cons]
        show _ = (Machine.andThen (b.process g) (fun m => m.processAll (gs.take (k + 1)))).1.absPos
        rw [hz]
        rfl
      · rw [hz] at hq; cases hq

/-- The range recorded at the first `n` lines printed for plain moves is that of the first `n` moves. -/
theorem moves_read_range (o : NormOpts) (hr : o.rmGcodes = []) {b : Machine} (hb : Sound b) (hax : b.axes = xyz) (hh : Home b)
    (out : List GCode) (hp : ∀ g ∈ out, PlainCode g) (hgr : ∀ g ∈ out, g.cls.group = some 1) (n : ℕ) (a : Axis) (ha : a ∈ xyz) :
    (readLines b (((o.omitGen (out, .done)).1.take n).flatMap (fun g => o.writeOne [g] [] none none))).1.rangeMin.val a =
        (b.processAll (out.take n)).1.rangeMin.val a ∧
      (readLines b (((o.omitGen (out, .done)).1.take n).flatMap (fun g => o.writeOne [g] [] none none))).1.rangeMax.val a =
        (b.processAll (out.take n)).1.rangeMax.val a := by
  have hp' : ∀ g ∈ out.take n, PlainCode g := fun g hg => hp g (List.mem_of_mem_take hg)
  have hgr' : ∀ g ∈ out.take n, g.cls.group = some 1 := fun g hg => hgr g (List.mem_of_mem_take hg)
  have hread : readLines b ((out.take n).map GCode.str) = b.processAll ((out.take n).map canon) :=
    read_lines_plain b _ hp'
  have hgok : ∀ g ∈ out.take n, GOK g := fun g hg => (hp' g hg).gok
  have hcan := forall₂_canon (out.take n)
  have hgok' : ∀ g ∈ (out.take n).map canon, GOK g := by
    intro g hg
    obtain ⟨x, hx, hxg⟩ := forall₂_left hcan.flip hg
    exact (show SameGCode x g from hxg).gok (hgok x hx)
  have h1 := path_all (out.take n) hgok b hb.wf
  have h2 := path_all _ hgok' b hb.wf
  rw [← visitedAll_near hcan hgok (.refl b) hb.wf hb.wf] at h2
  obtain ⟨r1, r2⟩ := path_range h1 a (by rw [hax]; exact ha)
  obtain ⟨s1, s2⟩ := path_range h2 a (by rw [hax]; exact ha)
  rw [r1, r2, ← s1, ← s2, ← hread]
  unfold NormOpts.omitGen
  by_cases hf : o.full = true
  · rw [if_pos hf]
    simp only
    rw [written_lines o hr (List.forall₂_same.2 (fun g _ => ⟨rfl, rfl, rfl, fun hw => by
      rename_i hg'; rw [(hp' g hg').noWs] at hw; cases hw⟩)) hp' hgr' b]
    exact ⟨rfl, rfl⟩
  · rw [if_neg hf]
    obtain ⟨out', e1, e2, e3⟩ := C47_same out hp
    have e1' : omitFrom newNull out = (out', .done) := e1
    rw [e1']
    have e4 : (Gen.andThen (out', .done) ([], .done)).1 = out' := by simp [Gen.andThen]
    rw [e4, written_lines o hr (List.forall₂_take n e2) hp' hgr' b]
    have hR : Reader b := ⟨hb.wf, hb.ok, hb.named, hb.noWs, hb.sync, hb.dict, fun x hx => hh x (hax ▸ hx)⟩
    obtain ⟨a', c', f1, f2, f3⟩ := e3 b hR n
    have haa : a'.axes = xyz := by
      have := congrArg Prod.fst (lines_frozen ((out.take n).map GCode.str) hb)
      rw [f1] at this
      exact this.trans hax
    rw [f1, f2]
    exact ⟨(f3.lo a (by rw [haa]; exact ha)).symm, (f3.hi a (by rw [haa]; exact ha)).symm⟩

theorem place_at {b m : Machine} {p : Position} {u : V3} (hS : Sound b) (hs : b.state = m.state) (hpos : b.pos = .ok p)
    (hv : p.vector = u) (a : Axis) (ha : a ∈ xyz) :
    ((b.absPos.val a : ℚ) : ℝ) = ((m.state.offset.val a : ℚ) : ℝ) + m.sysOff a + u.at a := by
  rw [pos_ok b hS.wf (not_bad hS)] at hpos
  have hso : b.sysOff = m.sysOff := by funext a; unfold Machine.sysOff; rw [hs]
  have hpv : p.val a = b.absPos.val a - m.sysOff a - m.state.offset.val a := by
    rw [← Except.ok.inj hpos, ← hs, ← hso]
  have hu : u.at a = ((p.val a : ℚ) : ℝ) := by
    rw [← hv]
    rcases mem_xyz ha with rfl | rfl | rfl <;> rfl
  rw [hu, hpv]
  push_cast
  ring

theorem lineTime_unit (am : ArcMethod) (N n : ℕ) (hn : n ≤ N) : 0 ≤ lineTime am N n ∧ lineTime am N n ≤ 1 := by
  have hr : (n : ℝ) ≤ N := by exact_mod_cast hn
  have h0 : (0 : ℝ) ≤ n := Nat.cast_nonneg n
  have hother : ∀ x : ℝ, x = (if n = 0 then (0 : ℝ) else if n = N then 1 else (2 * n - 1) / (2 * (N - 1))) → 0 ≤ x ∧ x ≤ 1 := by
    rintro x rfl
    split_ifs with h1 h2
    · norm_num
    · norm_num
    · have h3 : (1 : ℝ) ≤ n := by exact_mod_cast Nat.one_le_iff_ne_zero.2 h1
      have h4 : (n : ℝ) + 1 ≤ N := by exact_mod_cast Nat.lt_of_le_of_ne hn h2
      have h5 : (0 : ℝ) < 2 * (N - 1) := by linarith
      exact ⟨div_nonneg (by linarith) h5.le, (div_le_one h5).2 (by linarith)⟩
  cases am with
  | inside => exact ⟨div_nonneg h0 (h0.trans hr), div_le_one_of_le₀ hr (h0.trans hr)⟩
  | outside => exact hother _ rfl
  | mid => exact hother _ rfl

/-- The lines printed for an arc. -/
theorem arc_confines (o : NormOpts) (hr : o.rmGcodes = []) (x : ArcOpts) (hprec : 0 ≤ x.precision) (fl : Floats) {ε : ℚ} (hε0 : 0 ≤ ε)
    (hε : ε < 1 / 2000) (hfl : FloatsOK ε fl) {cc : List Word} {τ : ℚ} (hτ : 0 ≤ τ)
    (hδ : x.precision + 2 * ((τ : ℝ) + (ε + 1 / 2000)) ≤ δ) {m c b : Machine} (h : Behind cc m c)
    (hcb : Off τ c b) (hm : Sound m) (hb : Sound b) (hax : m.axes = xyz) (g : GCode) (hfit : ArcFits lo hi m g)
    (hsm : ∀ p am, m.pos = .ok p → ∀ v ∈ arcVertices x m p am g, ∀ a ∈ xyz, |v.at a| ≤ 999) :
    Confines lo hi δ b ((o.putArc x fl m g).andThen (fun m => .ofM (m.processGcodes [g] []))) := by
  intro hd hh hfb
  obtain ⟨f1, f2, f3⟩ := res_done hd
  have hbax : b.axes = xyz := hcb.axes.symm.trans (h.near.axes.symm.trans hax)
  refine ⟨lines_home hb hbax _ hh, ?_⟩
  have hof : ∀ z : MRes, (NormRes.ofM z).out = [] := by
    rintro ⟨z, _ | e⟩ <;> rfl
  rw [f3, hof, List.append_nil]
  obtain ⟨p, am, hp, hput, hdone⟩ : ∃ p am, m.pos = .ok p ∧ (o.putArc x fl m g).out =
      arcText o x fl m p am g (o.arcMoves x fl m p am g).1.length ∧ (o.arcMoves x fl m p am g).2 = .done := by
    unfold NormOpts.putArc at f1 ⊢
    cases hp : m.pos with
    | error e => rw [hp] at f1; cases f1
    | ok p =>
      rw [hp] at f1
      simp only at f1 ⊢
      cases ham : x.method g.word with
      | error e => rw [ham] at f1; cases f1
      | ok am =>
        rw [ham] at f1
        simp only at f1 ⊢
        rw [putAll_eq] at f1 ⊢
        refine ⟨p, am, rfl, ?_, f1⟩
        unfold arcText
        rw [List.take_length]
  rw [hput]
  have hL : linearizeArc g p (m.mode.plane.map GCode.cls) (some am) m.incremental (arcIncremental m) x.precision 3 =
      (arcVertices x m p am g, .done) := Prod.ext rfl (omitGen_done hdone)
  obtain ⟨hpl, hfit⟩ := hfit
  obtain ⟨hneq, hhel⟩ := hfit p hp
  have hsmall := hsm p am hp
  obtain ⟨C, A, s1, s2, s3, s4, s5, -, s6⟩ := printed_step o hr x fl ε hε0 hε hfl hτ m c b hm hb h.near hcb hax g p hp _ rfl am hpl hneq
    hL hsmall
  have hhel := hhel C A ⟨s1, s2, s3, s4, s5⟩
  have hst := arcText_state o hr x fl hε hfl m p am g hL hsmall hb hbax
  have hbm : b.state = m.state := (h.near.state.trans hcb.state).symm
  -- the texts and the moves
  have hmv : o.arcMoves x fl m p am g = o.omitGen ((fl m g (arcVertices x m p am g)).map linearTo, .done) := by
    have : o.arcMoves x fl m p am g = o.omitGen ((fl m g (arcVertices x m p am g)).map linearTo,
      (linearizeArc g p (m.mode.plane.map GCode.cls) (some am) m.incremental (arcIncremental m) x.precision 3).2) := rfl
    rw [this, hL]
  have hap := hfl m g _ hsmall
  generalize hqs : fl m g (arcVertices x m p am g) = qs at hap hmv
  have hqsm : ∀ q ∈ qs, q.Small := fun q hq => by
    obtain ⟨v, hv, hqv⟩ := forall₂_left hap hq
    exact approx_small hε hqv (hsmall v hv)
  have hplain : ∀ g ∈ (qs.map Q3.printed).map linearTo, PlainCode g ∧ g.cls.group = some 1 ∧ g.cls = .linearMove := by
    intro g hg
    simp only [List.mem_map, exists_exists_and_eq_and] at hg
    obtain ⟨q, hqm, rfl⟩ := hg
    exact ⟨linear_plain q (hqsm q hqm), linear_group.1, rfl⟩
  have htext : ∀ n, arcText o x fl m p am g n =
      ((o.omitGen ((qs.map Q3.printed).map linearTo, .done)).1.take n).flatMap (fun g => o.writeOne [g] [] none none) := by
    intro n
    unfold arcText
    rw [hmv]
    exact omitGen_take o qs n
  generalize (qs.map Q3.printed).map linearTo = out at hplain htext
  generalize hN : (o.arcMoves x fl m p am g).1.length = N at *
  have hnear : ∀ k < N, ∀ a ∈ xyz, lo a - δ ≤ ((readLines b (arcText o x fl m p am g (k + 1))).1.absPos.val a : ℝ) ∧
      ((readLines b (arcText o x fl m p am g (k + 1))).1.absPos.val a : ℝ) ≤ hi a + δ := by
    intro k hk a ha
    obtain ⟨b₁, b₂, p₁, p₂, u₁, u₂, -, -, -, j4, j5, j6, j7⟩ := s6 k hk
    obtain ⟨k1, k2⟩ := j7 1 zero_le_one (le_refl _)
    have hst2 := hst (k + 1)
    have hS2 := hb.lines (arcText o x fl m p am g (k + 1))
    rw [j4] at hst2 hS2 ⊢
    have hpl2 := place_at hS2 (hst2.trans hbm) j5 j6 a ha
    have htime : lineTime am N k + 1 * (lineTime am N (k + 1) - lineTime am N k) = lineTime am N (k + 1) := by ring
    rw [htime] at k1 k2
    have hseg : onSegment (u₁, u₂) 1 = u₂ := by
      show (⟨u₁.x + (u₂.x - u₁.x) * 1, u₁.y + (u₂.y - u₁.y) * 1, u₁.z + (u₂.z - u₁.z) * 1⟩ : V3) = u₂
      obtain ⟨x₂, y₂, z₂⟩ := u₂
      congr 1 <;> ring
    rw [hseg] at k1 k2
    obtain ⟨t0, t1⟩ := lineTime_unit am N (k + 1) hk
    obtain ⟨h1, h2⟩ := hhel _ t0 t1 a ha
    have hal : 0 ≤ allowed am x.precision ∧ allowed am x.precision ≤ x.precision := by
      cases am <;> simp only [allowed] <;> constructor <;> linarith
    have hτ' : (0 : ℝ) ≤ τ := by exact_mod_cast hτ
    have hε' : (0 : ℝ) ≤ ε := by exact_mod_cast hε0
    have hdiff : |((m.state.offset.val a : ℚ) : ℝ) + m.sysOff a + u₂.at a -
        helixPlace m p.vector (arcTopOf m g p.vector) C A (lineTime am N (k + 1)) a| ≤ δ := by
      unfold helixPlace
      rw [add_sub_add_left_eq_sub]
      rcases mem_xyz ha with rfl | rfl | rfl
      · refine le_trans ?_ ((Complex.abs_re_le_norm _).trans (k2.trans (by linarith)))
        rw [Complex.sub_re]
        exact le_of_eq rfl
      · refine le_trans ?_ ((Complex.abs_im_le_norm _).trans (k2.trans (by linarith)))
        rw [Complex.sub_im]
        exact le_of_eq rfl
      · exact k1.trans (by linarith)
    rw [← hpl2] at hdiff
    have := abs_le.1 hdiff
    constructor <;> linarith [this.1, this.2]
  intro a ha
  obtain ⟨g1, g2⟩ := hfb a ha
  obtain ⟨r1, r2⟩ := moves_read_range o hr hb hbax hh out (fun g hg => (hplain g hg).1) (fun g hg => (hplain g hg).2.1) N a ha
  rw [← htext] at r1 r2
  rw [r1, r2]
  have hgk : ∀ g ∈ out.take N, GOK g ∧ g.cls = .linearMove := fun g hg =>
    ⟨(hplain g (List.mem_of_mem_take hg)).1.gok, (hplain g (List.mem_of_mem_take hg)).2.2⟩
  have hpa := path_all (out.take N) (fun g hg => (hgk g hg).1) b hb.wf
  have hvis : ∀ q ∈ visitedAll b (out.take N), lo a - δ ≤ (q.val a : ℝ) ∧ (q.val a : ℝ) ≤ hi a + δ := by
    intro q hq
    obtain ⟨k, hk, rfl⟩ := linear_visited _ hb.wf hgk q hq
    rw [List.length_take] at hk
    rw [List.take_take, min_eq_left (by omega)]
    obtain ⟨b', q1, q2⟩ := moves_read o hr hb out (fun g hg => (hplain g hg).1) (fun g hg => (hplain g hg).2.1) (k + 1)
    rw [q2.abs]
    have := hnear k (by omega) a ha
    rw [htext, q1] at this
    exact this
  constructor
  · rcases (path_low hpa a (by rw [hbax]; exact ha)).1 with e | ⟨q, hq, e⟩
    · rw [e]; exact g1
    · rw [e]; exact (hvis q hq).1
  · rcases (path_high hpa a (by rw [hbax]; exact ha)).1 with e | ⟨q, hq, e⟩
    · rw [e]; exact g2
    · rw [e]; exact (hvis q hq).2

/-! ## Lines -/

theorem fits_back {m m' : Machine} {ps : List Position} (h : Machine.Path m ps m') (hax : m.axes = xyz) (hf : FitsIn lo hi δ m') :
    FitsIn lo hi δ m := by
  intro a ha
  obtain ⟨k1, k2, -⟩ := path_grows h a (by rw [hax]; exact ha)
  obtain ⟨f1, f2⟩ := hf a ha
  have k1' : (m'.rangeMin.val a : ℝ) ≤ m.rangeMin.val a := by exact_mod_cast k1
  have k2' : (m.rangeMax.val a : ℝ) ≤ m'.rangeMax.val a := by exact_mod_cast k2
  exact ⟨f1.trans k1', k2'.trans f2⟩

theorem home_along {m m' : Machine} {ps : List Position} (h : Machine.Path m ps m') (hax : m.axes = xyz) (hh : Home m) : Home m' :=
  fun a ha => (path_grows h a (by rw [hax]; exact ha)).2.2 (hh a ha)

/-- A line with an arc. -/
theorem arcLine_confines (o : NormOpts) (hr : o.rmGcodes = []) (x : ArcOpts) (hon : x.on = true) (hprec : 0 ≤ x.precision) (fl : Floats)
    {ε : ℚ} (hε0 : 0 ≤ ε) (hε : ε < 1 / 2000) (hfl : FloatsOK ε fl) {τ : ℚ} (hτ : 0 ≤ τ)
    {m c b : Machine} (h : Behind (replaced o x) m c) (hcb : Off τ c b) (hm : Sound m) (hc : Sound c) (hb : Sound b) (hax : m.axes = xyz)
    (hhome : Home m) {t : List Char} {l : Line} (hl : Line.ofText t = .ok l) {gs : List GCode}
    (hgs : m.blockModalGcodes l.block = .ok gs)
    (hx : ∀ befores g afters, splitGcodes gs .arcMove true = (befores, [g], afters) → Linearizes o x m l befores g afters)
    (hfit : ∀ befores g afters, splitGcodes gs .arcMove true = (befores, [g], afters) → ArcFits lo hi (m.processAll befores).1 g)
    (hδ : ∀ befores g afters, splitGcodes gs .arcMove true = (befores, [g], afters) → x.precision + 2 * ((τ : ℝ) + (ε + 1 / 2000)) ≤ δ)
    (hend : FitsIn lo hi 0 (m.processBlock l.block).1) : Confines lo hi δ b (o.arcLine x fl m gs l.comment) := by
  obtain ⟨e1, e2, e3, e4, e5, e6⟩ := effective_ok hl hm.ok hm.named hgs
  have hso : gs.Pairwise (fun a b => a.cls.order ≤ b.cls.order) := by
    have := (execSort_stable gs).2.1
    rw [e5] at this
    exact this
  obtain ⟨c1, -⟩ := line_comment_ok hl
  unfold NormOpts.arcLine
  split
  · rename_i befores g afters hsp
    obtain ⟨ha, hsub⟩ := split_append hsp
    have hX := hx befores g afters hsp
    have hfit := hfit befores g afters hsp
    have hδ := hδ befores g afters hsp
    rw [e5] at ha
    have hmb : ∀ x ∈ befores, x ∈ gs := fun x hx => by rw [ha]; simp [hx]
    have hmg : g ∈ gs := by rw [ha]; simp
    have hma : ∀ x ∈ afters, x ∈ gs := fun x hx => by rw [ha]; simp [hx]
    have sb : befores.Sublist gs := by rw [ha]; exact List.sublist_append_left _ _
    have sa : afters.Sublist gs := by
      rw [ha]; exact (List.sublist_cons_self g afters).trans (List.sublist_append_right _ _)
    have hη : 0 ≤ ε + 1 / 2000 := by linarith
    have hτr : (0 : ℝ) ≤ τ := by exact_mod_cast hτ
    have hεr : (0 : ℝ) ≤ ε := by exact_mod_cast hε0
    have hτδ : (τ : ℝ) ≤ δ := by linarith
    have hax₁ : (m.processAll befores).1.axes = xyz := by
      have : (m.processAll befores).1.axes = m.axes :=
        congrArg Prod.fst (processAll_frozen (fun x hx => e2 x (hmb x hx)) hm.wf)
      rw [this]; exact hax
    have p₁ := path_all befores (fun x hx => e2 x (hmb x hx)) m hm.wf
    have home₁ := home_along p₁ hax hhome
    have wf₁ := p₁.wf hm.wf
    -- the range on the way
    have fit₁ : (m.processAll befores).2 = none → FitsIn lo hi 0 (m.processAll befores).1 := by
      intro hn
      rw [e6, ha, processAll_append] at hend
      rcases hz : m.processAll befores with ⟨m₁, _ | e⟩
      · rw [hz] at hend hax₁ wf₁
        exact fits_back (path_all (g :: afters) (fun x hx => e2 x (by rw [ha]; exact List.mem_append_right _ hx)) m₁ wf₁) hax₁ hend
      · rw [hz] at hn; cases hn
    have p₂ := path_process (m.processAll befores).1 wf₁ g (e2 g hmg)
    have home₂ := home_along p₂ hax₁ home₁
    have wf₂ := p₂.wf wf₁
    have hax₂ : ((m.processAll befores).1.process g).1.axes = xyz := p₂.frame.axes.trans hax₁
    have p₃ := path_all afters (fun x hx => e2 x (hma x hx)) ((m.processAll befores).1.process g).1 wf₂
    have home₃ := home_along p₃ hax₂ home₂
    have hax₃ : (((m.processAll befores).1.process g).1.processAll afters).1.axes = xyz := p₃.frame.axes.trans hax₂
    have fit₃ : (m.processAll befores).2 = none → ((m.processAll befores).1.process g).2 = none →
        FitsIn lo hi 0 (((m.processAll befores).1.process g).1.processAll afters).1 := by
      intro hn hn'
      rw [e6, ha, processAll_append] at hend
      rcases hz : m.processAll befores with ⟨m₁, _ | e⟩
      · rw [hz] at hend hn'
        rcases hz' : m₁.process g with ⟨m₂, _ | e⟩
        · have hq : Machine.andThen (m₁, none) (fun m => m.processAll (g :: afters)) = m₂.processAll afters := by
            show Machine.andThen (m₁.process g) _ = _
            rw [hz']
            rfl
          rw [hq] at hend
          exact hend
        · rw [hz'] at hn'; cases hn'
      · rw [hz] at hn; cases hn
    have hcg : CommentOK none (if o.rmComments then none else
        some (Comment.brackets ("linearized arc: ".toList ++ NormOpts.reprText g))) := by
      split_ifs
      · trivial
      · exact linearized_comment g hX.plainG
    have hputF : ∀ c, Behind (replaced o x) m c → Sound c → Follows (replaced o x) c (o.putProcess m befores) (m.processAll befores) :=
      fun c h hc => putProcess_follows o hr h hm hc befores (fun x hx => e1 x (hmb x hx)) (fun x hx => e2 x (hmb x hx))
      (e3.sublist sb) (fun x hx => e4 x (hmb x hx)) (execSort_of_pairwise (hso.sublist sb)) hX.plainB hX.conflictB
    have hputB : ∀ c, Behind (replaced o x) m c → Sound c → Broad m c (o.putProcess m befores) [] :=
      fun c h hc => putProcess_broad o hr h hm hc befores (fun x hx => e1 x (hmb x hx)) (fun x hx => e2 x (hmb x hx))
      (e3.sublist sb) (fun x hx => e4 x (hmb x hx)) (execSort_of_pairwise (hso.sublist sb)) hX.plainB hX.conflictB
    refine Confines.andThen ((hputF c h hc).trails hτ hcb hc hb) (fun hn => broad_confines hτ hτδ h hcb hm hc hb hax hhome
      (hputF _) (hputB _) (fit₁ hn) (by simp)) ?_
    intro c₁ b₁ hn₁ h₁ o₁ hm₁ hc₁ hb₁
    have hcF : ∀ c, Behind (replaced o x) (m.processAll befores).1 c → Sound c → Follows (replaced o x) c
        (NormRes.put (m.processAll befores).1 (o.write [] [] (some (.brackets ("linearized arc: ".toList ++ NormOpts.reprText g)))))
        ((m.processAll befores).1, none) :=
      fun c h hc => comment_follows o hr h hm₁ hc _ hcg
    refine Confines.andThen ((hcF _ h₁ hc₁).trails hτ o₁ hc₁ hb₁) (fun _ => broad_confines hτ hτδ h₁ o₁ hm₁ hc₁ hb₁ hax₁ home₁
      (hcF _) (fun _ hc => comment_broad o hr hc _ hcg) (fit₁ hn₁) (by simp)) ?_
    intro c₂ b₂ _ h₂ o₂ hm₂ hc₂ hb₂
    simp only at h₂ hm₂ ⊢
    rw [← NormRes.andThen_assoc]
    have hstep : Trails (replaced o x) b₂ ((if (m.processAll befores).1.incremental = true then τ else 0) + (ε + 1 / 2000))
        ((o.putArc x fl (m.processAll befores).1 g).andThen (fun m => .ofM (m.processGcodes [g] [])))
        ((m.processAll befores).1.process g) := by
      intro hd
      have hw : g.word ∈ replaced o x := by
        unfold replaced
        rw [if_pos hon]
        unfold NormOpts.putArc at hd
        cases hp : (m.processAll befores).1.pos with
        | error e => rw [hp] at hd; cases hd
        | ok p =>
          rw [hp] at hd
          simp only at hd
          cases ham : x.method g.word with
          | error e => rw [ham] at hd; cases hd
          | ok am =>
            refine List.mem_append_right _ ?_
            rcases method_word ham with hw | hw <;> rw [hw] <;> simp
      exact arc_lands o hr x fl hε0 hε hfl hτ h₂ o₂ hm₂ hc₂ hb₂ hax₁ g (e2 g hmg) (e1 g hmg) hsub hw hX.small hd
    have hτ' : 0 ≤ (if (m.processAll befores).1.incremental = true then τ else 0) + (ε + 1 / 2000) := by
      split_ifs <;> linarith
    have hτδ' : (((if (m.processAll befores).1.incremental = true then τ else 0) + (ε + 1 / 2000) : ℚ) : ℝ) ≤ δ := by
      split_ifs <;> push_cast <;> linarith
    refine Confines.andThen hstep (fun _ => arc_confines o hr x hprec fl hε0 hε hfl hτ hδ h₂ o₂ hm₂ hb₂ hax₁ g hfit hX.small) ?_
    intro c₃ b₃ hn₃ h₃ o₃ hm₃ hc₃ hb₃
    generalize (if (m.processAll befores).1.incremental = true then τ else 0) + (ε + 1 / 2000) = τ' at *
    have hafF : ∀ c, Behind (replaced o x) ((m.processAll befores).1.process g).1 c → Sound c → Follows (replaced o x) c
        (o.putProcess ((m.processAll befores).1.process g).1 afters) (((m.processAll befores).1.process g).1.processAll afters) :=
      fun c h hc => putProcess_follows o hr h hm₃ hc afters (fun x hx => e1 x (hma x hx)) (fun x hx => e2 x (hma x hx))
      (e3.sublist sa) (fun x hx => e4 x (hma x hx)) (execSort_of_pairwise (hso.sublist sa)) hX.plainA hX.conflictA
    have hafB : ∀ c, Behind (replaced o x) ((m.processAll befores).1.process g).1 c → Sound c →
        Broad ((m.processAll befores).1.process g).1 c (o.putProcess ((m.processAll befores).1.process g).1 afters) [] :=
      fun c h hc => putProcess_broad o hr h hm₃ hc afters (fun x hx => e1 x (hma x hx)) (fun x hx => e2 x (hma x hx))
      (e3.sublist sa) (fun x hx => e4 x (hma x hx)) (execSort_of_pairwise (hso.sublist sa)) hX.plainA hX.conflictA
    refine Confines.andThen ((hafF _ h₃ hc₃).trails hτ' o₃ hc₃ hb₃) (fun _ => broad_confines hτ' hτδ' h₃ o₃ hm₃ hc₃ hb₃ hax₂ home₂
      (hafF _) (hafB _) (fit₃ hn₁ hn₃) (by simp)) ?_
    intro c₄ b₄ _ h₄ o₄ hm₄ hc₄ hb₄
    by_cases hcm : l.comment = none
    · rw [if_pos hcm]
      exact fun _ hh hf => ⟨hh, hf⟩
    · rw [if_neg hcm]
      have hcg' : CommentOK none (if o.rmComments then none else l.comment) := by
        split_ifs with hrm
        · trivial
        · refine commentOK_none c1 ?_
          rcases hX.comment with hX | hX | hX
          · exact absurd hX hrm
          · exact .inl hX
          · exact .inr hX
      exact broad_confines hτ' hτδ' h₄ o₄ hm₄ hc₄ hb₄ hax₃ home₃
        (fun h hc => comment_follows o hr h hm₄ hc _ hcg') (fun _ hc => comment_broad o hr hc _ hcg') (fit₃ hn₁ hn₃) (by simp)
  · intro hd; cases hd

theorem lineA_confines (o : NormOpts) (hr : o.rmGcodes = []) (hi' : o.rmInvalid = false) (x : ArcOpts) (hon : x.on = true)
    (hprec : 0 ≤ x.precision) (fl : Floats) {ε : ℚ} (hε0 : 0 ≤ ε) (hε : ε < 1 / 2000) (hfl : FloatsOK ε fl) (fuel : ℕ) {τ : ℚ} (hτ : 0 ≤ τ)
    {m c b : Machine} (h : Behind (replaced o x) m c) (hcb : Off τ c b) (hm : Sound m) (hc : Sound c) (hb : Sound b)
    (hax : m.axes = xyz) (hig : m.ignoreInvalid = false) (hhome : Home m) (t : List Char) (ht : LineReplaces o x fuel m t)
    (hδ : x.precision + 2 * ((τ : ℝ) + (lineArcs m t).length * (ε + 1 / 2000)) ≤ δ) (hfit : LineFits lo hi m t)
    (hlev : ∀ y ∈ lineLevels o m t, lo .Z ≤ (y : ℝ) ∧ (y : ℝ) ≤ hi .Z) (hend : FitsIn lo hi 0 (m.processStr t).1) :
    Confines lo hi δ b (o.lineA x fl fuel m t) := by
  unfold NormOpts.lineA
  cases hl : Line.ofText t with
  | error e => intro hd; cases hd
  | ok l =>
    have hps : m.processStr t = m.processBlock l.block := by unfold processStr; rw [hl]
    rw [hps] at hend
    have hτr : (0 : ℝ) ≤ τ := by exact_mod_cast hτ
    have hεr : (0 : ℝ) ≤ ε := by exact_mod_cast hε0
    have hτδ : (τ : ℝ) ≤ δ := by
      have : (0 : ℝ) ≤ (lineArcs m t).length * (ε + 1 / 2000) := by positivity
      linarith
    simp only [hi', Bool.false_eq_true, if_false]
    cases hgs : m.blockModalGcodes l.block with
    | error e => intro hd; cases hd
    | ok gs =>
      have hx := ht l gs hl hgs
      simp only
      by_cases harc : (x.on && gs.any (fun g => g.cls.isSub .arcMove)) = true
      · rw [if_pos harc] at hx ⊢
        refine arcLine_confines o hr x hon hprec fl hε0 hε hfl hτ h hcb hm hc hb hax hhome hl hgs hx
          (fun befores g afters hsp => hfit l gs befores g afters hl hgs hsp) ?_ hend
        intro befores g afters hsp
        have hla : lineArcs m t = [(m.processAll befores).1.incremental] := by
          unfold lineArcs
          rw [hl]
          simp only
          rw [hgs]
          simp only
          rw [hsp]
        rw [hla] at hδ
        simp only [List.length_singleton, Nat.cast_one, one_mul] at hδ
        exact hδ
      · rw [if_neg harc] at hx ⊢
        rw [hon, Bool.true_and, Bool.not_eq_true] at harc
        have hlev' : ∀ y : ℚ, y ∈ (if (o.cannedExpand && gs.any (fun g => decide (g.word ∈ o.cannedCodes))) = true then
            match splitGcodes gs .cannedCycle true with
            | (befores, [g], _) => levelsAt (m.processAll befores).1 g
            | _ => []
          else [] : List ℚ) → lo .Z ≤ (y : ℝ) ∧ (y : ℝ) ≤ hi .Z := by
          unfold lineLevels at hlev
          rw [hl] at hlev
          simp only at hlev
          rw [hgs] at hlev
          exact hlev
        by_cases hany : (o.cannedExpand && gs.any (fun g => decide (g.word ∈ o.cannedCodes))) = true
        · rw [if_pos hany] at hx hlev' ⊢
          have hce : o.cannedExpand = true := (Bool.and_eq_true_iff.1 hany).1
          have hcc : ∀ w ∈ o.cannedCodes, w ∈ replaced o x := by
            intro w hw
            unfold replaced
            rw [if_pos hce]
            exact List.mem_append_left _ hw
          exact broad_confines hτ hτδ h hcb hm hc hb hax hhome
            (fun h hc => expandLine_follows o hr fuel hcc h hm hc (by rw [hax]) hl hgs hx)
            (fun h hc => expandLine_broad o hr fuel hcc h hm hc (by rw [hax]) hl hgs hx) hend hlev'
        · rw [if_neg hany] at hx ⊢
          have hno : ∀ g ∈ gs, g.word ∉ replaced o x := by
            intro g hg hcm
            obtain ⟨e1, -⟩ := effective_ok hl hm.ok hm.named hgs
            have hcl := e1 g hg
            unfold replaced at hcm
            rw [if_pos hon] at hcm
            rcases List.mem_append.1 hcm with hcm | hcm
            · apply hany
              split_ifs at hcm with hce
              · rw [hce, Bool.true_and, List.any_eq_true]
                exact ⟨g, hg, by simpa using hcm⟩
              · cases hcm
            · have h2 : ∀ c, wordClass ⟨'G', .num 2⟩ = some c → c.isSub .arcMove = true := by decide +kernel
              have h3 : ∀ c, wordClass ⟨'G', .num 3⟩ = some c → c.isSub .arcMove = true := by decide +kernel
              have := List.any_eq_false.1 harc g hg
              simp only [List.mem_cons, List.not_mem_nil, or_false] at hcm
              rcases hcm with hcm | hcm <;> rw [hcm] at hcl
              · exact this (h2 _ hcl)
              · exact this (h3 _ hcl)
          exact broad_confines hτ hτδ h hcb hm hc hb hax hhome
            (fun h hc => plainLine_follows o hr h hm hc hig hl hgs hno hx)
            (fun h hc => plainLine_broad o hr h hm hc hig hl hgs hno hx) hend (by simp)

theorem loopA_confines (o : NormOpts) (hr : o.rmGcodes = []) (hi' : o.rmInvalid = false) (x : ArcOpts) (hon : x.on = true)
    (hprec : 0 ≤ x.precision) (fl : Floats) {ε : ℚ} (hε0 : 0 ≤ ε) (hε : ε < 1 / 2000) (hfl : FloatsOK ε fl) (fuel : ℕ)
    (ts : List (List Char)) : ∀ {τ : ℚ}, 0 ≤ τ → ∀ {m c b : Machine}, Behind (replaced o x) m c → Off τ c b → Sound m → Sound c → Sound b →
      m.axes = xyz → m.ignoreInvalid = false → Home m → LinesReplace o x fuel m ts →
      x.precision + 2 * ((τ : ℝ) + (arcsOf m ts).length * (ε + 1 / 2000)) ≤ δ → LinesFit lo hi m ts →
      (∀ y ∈ programLevels o m ts, lo .Z ≤ (y : ℝ) ∧ (y : ℝ) ≤ hi .Z) → FitsIn lo hi 0 (readLines m ts).1 →
      Confines lo hi δ b (o.loopA x fl fuel m ts) := by
  induction ts with
  | nil => exact fun _ m c b _ _ _ _ _ _ _ _ _ _ _ _ _ _ hh hf => ⟨hh, hf⟩
  | cons t ts ih =>
    intro τ hτ m c b h hcb hm hc hb hax hig hhome hts hδ hfit hlev hend
    have hη : 0 ≤ ε + 1 / 2000 := by linarith
    have hεr : (0 : ℝ) ≤ ε := by exact_mod_cast hε0
    have hcount : (arcsOf m (t :: ts)).length = (lineArcs m t).length + (arcsOf (m.processStr t).1 ts).length := by
      rw [arcsOf, List.length_append]
    rw [hcount] at hδ
    push_cast at hδ
    have hfr := str_frozen hm.wf t
    have hax' : (m.processStr t).1.axes = xyz := by
      have : (m.processStr t).1.axes = m.axes := congrArg Prod.fst hfr
      rw [this]; exact hax
    have hpath := path_str hm.wf t
    have hrest : (m.processStr t).2 = none → FitsIn lo hi 0 (readLines (m.processStr t).1 ts).1 := by
      intro hn
      unfold readLines Machine.andThen at hend
      rcases hz : m.processStr t with ⟨m₁, _ | e⟩
      · rw [hz] at hend; exact hend
      · rw [hz] at hn; cases hn
    have hfit₁ : (m.processStr t).2 = none → FitsIn lo hi 0 (m.processStr t).1 := by
      intro hn a ha
      obtain ⟨k1, k2⟩ := lines_grow ts (hpath.wf hm.wf) a (by rw [hax']; exact ha)
      obtain ⟨f1, f2⟩ := hrest hn a ha
      have k1' : ((readLines (m.processStr t).1 ts).1.rangeMin.val a : ℝ) ≤ (m.processStr t).1.rangeMin.val a := by exact_mod_cast k1
      have k2' : ((m.processStr t).1.rangeMax.val a : ℝ) ≤ (readLines (m.processStr t).1 ts).1.rangeMax.val a := by exact_mod_cast k2
      exact ⟨f1.trans k1', k2'.trans f2⟩
    unfold NormOpts.loopA
    refine Confines.andThen (lineA_trails o hr hi' x hon fl hε0 hε hfl fuel hτ h hcb hm hc hb hax hig t hts.1) (fun hn =>
      lineA_confines o hr hi' x hon hprec fl hε0 hε hfl fuel hτ h hcb hm hc hb hax hig hhome t hts.1 ?_ hfit.1
        (fun y hy => hlev y (by unfold programLevels; exact List.mem_append_left _ hy)) (hfit₁ hn)) ?_
    · have : (0 : ℝ) ≤ (arcsOf (m.processStr t).1 ts).length * (ε + 1 / 2000) := by positivity
      linarith
    · intro c' b' hn h' o' hm' hc' hb'
      have hdr := drift_count hη (lineArcs m t) hτ
      have hdr' : ((drift (ε + 1 / 2000) τ (lineArcs m t) : ℚ) : ℝ) ≤ τ + (lineArcs m t).length * (ε + 1 / 2000) := by
        have := (Rat.cast_le (K := ℝ)).2 hdr
        push_cast at this ⊢
        exact this
      exact ih (drift_nonneg hη _ hτ) h' o' hm' hc' hb' hax' ((congrArg (fun x => x.2.1) hfr).trans hig)
        (home_along hpath hax hhome) hts.2 (by linarith) hfit.2
        (fun y hy => hlev y (by unfold programLevels; exact List.mem_append_right _ hy)) (hrest hn)

/-- **C119**: and no more.  If everything that the input does is within `lo` and `hi` — the range that a machine records that reads it,
the helices that its arcs ask for, and the levels at which its cycles drill, if they are expanded — the range that a machine records
that reads what was printed is within `lo` and `hi` up to the precision and twice the error of a coordinate for each arc. -/
theorem C119_within (o : NormOpts) (hr : o.rmGcodes = []) (hi' : o.rmInvalid = false) (x : ArcOpts) (hon : x.on = true)
    (hprec : 0 ≤ x.precision) (fl : Floats) (ε : ℚ) (hε0 : 0 ≤ ε) (hε : ε < 1 / 2000) (hfl : FloatsOK ε fl) (fuel : ℕ)
    (m : Machine) (hm : Reader m) (hig : m.ignoreInvalid = false) (hax : m.axes = xyz) (ts : List (List Char))
    (hts : LinesReplace o x fuel m ts) (hd : (o.loopA x fl fuel m ts).status = .done) (lo hi : Axis → ℝ)
    (a : Machine) (ha : readLines m ts = (a, none)) (hfit : FitsIn lo hi 0 a) (harcs : LinesFit lo hi m ts)
    (hlev : ∀ y ∈ programLevels o m ts, lo .Z ≤ (y : ℝ) ∧ (y : ℝ) ≤ hi .Z) :
    ∃ b, readLines m (o.loopA x fl fuel m ts).out = (b, none) ∧
      FitsIn lo hi (x.precision + 2 * ((arcsOf m ts).length * (ε + 1 / 2000))) b := by
  obtain ⟨-, b, hb, -⟩ := C73_count_partial o hr hi' x hon fl ε hε0 hε hfl fuel m hm.sound hig hax _ hts hd
  refine ⟨b, hb, ?_⟩
  have hhome : Home m := fun y hy => hm.within y (by rw [hax]; exact hy)
  have hεr : (0 : ℝ) ≤ ε := by exact_mod_cast hε0
  have hstart : FitsIn lo hi (x.precision + 2 * ((arcsOf m ts).length * ((ε : ℝ) + 1 / 2000))) m := by
    intro y hy
    obtain ⟨k1, k2⟩ := lines_grow ts hm.wf y (by rw [hax]; exact hy)
    obtain ⟨f1, f2⟩ := hfit y hy
    rw [ha] at k1 k2
    have k1' : (a.rangeMin.val y : ℝ) ≤ m.rangeMin.val y := by exact_mod_cast k1
    have k2' : (m.rangeMax.val y : ℝ) ≤ a.rangeMax.val y := by exact_mod_cast k2
    have : (0 : ℝ) ≤ x.precision + 2 * ((arcsOf m ts).length * ((ε : ℝ) + 1 / 2000)) := by positivity
    constructor <;> linarith
  have := loopA_confines (δ := x.precision + 2 * ((arcsOf m ts).length * ((ε : ℝ) + 1 / 2000))) o hr hi' x hon hprec fl hε0 hε hfl fuel ts
    (le_refl 0) (.refl _ m) (Off.rfl' m) hm.sound hm.sound hm.sound hax hig hhome hts (by push_cast; rw [zero_add]) harcs hlev
    (by rw [ha]; exact hfit) hd hhome hstart
  rw [hb] at this
  exact this.2

/-! ## Instance -/

theorem lineFits_none {m : Machine} {t : List Char} (h : lineArcs m t = []) : LineFits lo hi m t := by
  intro l gs befores g afters hl hgs hsp
  unfold lineArcs at h
  rw [hl] at h
  simp only at h
  rw [hgs] at h
  simp only at h
  rw [hsp] at h
  cases h

/-- Least coordinates of the half turn. -/
def halfLow : Axis → ℝ
  | .X => -1
  | _ => 0

/-- Greatest coordinates of the half turn. -/
def halfHigh : Axis → ℝ
  | .Z => 0
  | _ => 1

/-- The half turn from X-1 to X1 through Y1: the lines printed for it take up no more than X-1.0112 to X1.0112 and Y-0.0112 to
Y1.0112. -/
example : ∃ b, readLines newNull (expandOpts.loopA arcSampleOpts floorFloats 20 newNull halfSample).out = (b, none) ∧
    FitsIn halfLow halfHigh (1 / 100 + 2 * (1 * (6 / 10000))) b := by
  obtain ⟨h1, h2⟩ := programB_sound (o := expandOpts) rfl rfl (x := arcSampleOpts) rfl (by norm_num [arcSampleOpts])
    (by norm_num [arcSampleOpts]) (by norm_num) (by norm_num) floorFloats_ok (fuel := 20) halfSample (m := newNull)
    (reader_null xyz).sound rfl rfl (by decide +kernel)
  have hck : (readLines newNull halfSample).2 = none ∧ (arcsOf newNull halfSample).length = 1 ∧
      [Axis.X, .Y, .Z].map (fun a => ((readLines newNull halfSample).1.rangeMin.val a, (readLines newNull halfSample).1.rangeMax.val a)) =
        [(-1, 1), (0, 0), (0, 0)] ∧ programLevels expandOpts newNull halfSample = [] ∧
      lineArcs newNull "G17 G90".toList = [] ∧ lineArcs (newNull.processStr "G17 G90".toList).1 "G1 X-1 F100".toList = [] ∧
      halfCheck ((newNull.processStr "G17 G90".toList).1.processStr "G1 X-1 F100".toList).1 "G2 X1 I1".toList = true ∧
      (let m := ((newNull.processStr "G17 G90".toList).1.processStr "G1 X-1 F100".toList).1
       [Axis.X, .Y, .Z].map (fun a => m.state.offset.val a + m.sysOff a) = [0, 0, 0]) := by decide +kernel
  obtain ⟨c1, c2, c3, c4, c5, c6, c7, c8⟩ := hck
  simp only [List.map_cons, List.map_nil, List.cons.injEq, Prod.mk.injEq, and_true] at c3 c8
  obtain ⟨⟨x1, x2⟩, ⟨y1, y2⟩, z1, z2⟩ := c3
  have hfit : FitsIn halfLow halfHigh 0 (readLines newNull halfSample).1 := by
    intro a ha
    rcases mem_xyz ha with rfl | rfl | rfl
    · rw [x1, x2]; norm_num [halfLow, halfHigh]
    · rw [y1, y2]; norm_num [halfLow, halfHigh]
    · rw [z1, z2]; norm_num [halfLow, halfHigh]
  have harcs : LinesFit halfLow halfHigh newNull halfSample := by
    refine ⟨lineFits_none c5, lineFits_none c6, ?_, trivial⟩
    intro l gs befores g afters hl hgs hsp
    obtain ⟨l', gs', afters', p, k1, k2, k3, k5, k6, k4, -, k7, k8⟩ := half_spec c7
    have hm₁ : Sound ((newNull.processStr "G17 G90".toList).1.processStr "G1 X-1 F100".toList).1 := ((reader_null xyz).sound.str _).str _
    generalize ((newNull.processStr "G17 G90".toList).1.processStr "G1 X-1 F100".toList).1 = m₁ at *
    rw [k1] at hl
    obtain rfl := Except.ok.inj hl
    rw [k2] at hgs
    obtain rfl := Except.ok.inj hgs
    rw [k3] at hsp
    simp only [Prod.mk.injEq, List.cons.injEq, and_true] at hsp
    obtain ⟨rfl, rfl, -⟩ := hsp
    show ArcFits _ _ m₁ halfArc
    refine ⟨.inr k6, ?_⟩
    intro p' hp'
    rw [k7] at hp'
    obtain rfl := Except.ok.inj hp'
    rw [k8]
    have hE : halfArc.arcEnd ⟨-1, 0, 0⟩ false = ⟨1, 0, 0⟩ := by
      simp [halfArc, GCode.arcEnd, GCode.num?, GCode.param, Word.num]
    have e1 : arcEndOf m₁ halfArc ⟨-1, 0, 0⟩ = 1 := by
      rw [← arcEndOf_eq hm₁, k5, hE]; apply Complex.ext <;> simp [Pl.coord]
    have e2 : arcTopOf m₁ halfArc ⟨-1, 0, 0⟩ = 0 := by
      rw [← arcTopOf_eq hm₁, k5, hE]
    have e3 : xy.coord ⟨-1, 0, 0⟩ = -1 := by apply Complex.ext <;> simp [Pl.coord]
    have e5 : arcCentreOf m₁ halfArc ⟨-1, 0, 0⟩ = 0 := by
      unfold arcCentreOf
      rw [k4, if_neg (by decide)]
      apply Complex.ext <;> simp [halfArc, GCode.num?, GCode.param, Word.num]
    rw [e1, e2]
    refine ⟨by rw [e3]; intro h; have := congrArg Complex.re h; norm_num at this, ?_⟩
    rintro c A ⟨t1, t2, -, -, t5⟩ T hT0 hT1 a ha
    have hc : c = 0 := by
      rw [← e5]
      exact (t5 (by decide)).fits (by rw [e1, e3, e5]; simp)
    rw [e1, e3, hc] at t1
    obtain ⟨t3, t4⟩ := t2 (by decide +kernel)
    have hA : A = Real.pi := half_angle t1 t3 t4
    have ht : turned c (xy.coord ⟨-1, 0, 0⟩) A T = -cw (T * Real.pi) := by
      rw [e3, hc, hA]
      unfold turned cw
      push_cast
      ring
    have hre : (turned c (xy.coord ⟨-1, 0, 0⟩) A T).re = -Real.cos (T * Real.pi) := by rw [ht, cw_eq, Complex.neg_re]
    have him : (turned c (xy.coord ⟨-1, 0, 0⟩) A T).im = Real.sin (T * Real.pi) := by rw [ht, cw_eq, Complex.neg_im]; exact neg_neg _
    have hs0 : 0 ≤ Real.sin (T * Real.pi) :=
      Real.sin_nonneg_of_nonneg_of_le_pi (mul_nonneg hT0 Real.pi_pos.le) (by nlinarith [Real.pi_pos])
    have hcast : ∀ a, m₁.state.offset.val a + m₁.sysOff a = 0 → ((m₁.state.offset.val a : ℚ) : ℝ) + m₁.sysOff a = 0 :=
      fun a h => by exact_mod_cast h
    unfold helixPlace
    rcases mem_xyz ha with rfl | rfl | rfl
    · rw [hcast _ c8.1, zero_add]
      simp only [hre]
      constructor
      · simp only [halfLow]; linarith [Real.cos_le_one (T * Real.pi)]
      · simp only [halfHigh]; linarith [Real.neg_one_le_cos (T * Real.pi)]
    · rw [hcast _ c8.2.1, zero_add]
      simp only [him]
      constructor
      · exact hs0
      · exact Real.sin_le_one _
    · rw [hcast _ c8.2.2, zero_add]
      norm_num [halfLow, halfHigh]
  obtain ⟨b, r1, r2⟩ := C119_within expandOpts rfl rfl arcSampleOpts rfl (by norm_num [arcSampleOpts]) floorFloats (1 / 10000)
    (by norm_num) (by norm_num) floorFloats_ok 20 newNull (reader_null xyz) rfl rfl halfSample h1 h2
    halfLow halfHigh _ (Prod.ext rfl c1) hfit harcs (by rw [c4]; simp)
  refine ⟨b, r1, ?_⟩
  rw [c2] at r2
  convert r2 using 1
  norm_num [arcSampleOpts]

end Pygcode
