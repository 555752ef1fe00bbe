import Verif.Lemmas.Off
import Verif.Model.NormArc
import Verif.Props.ArcPath
import Verif.Props.NormExpand

/-!
# `pygcode-norm --arc_linearize` (C73)
-/

namespace Pygcode
open Props Machine Spec

/-! ## The text of a line -/

/-- What is read from the printed coordinates, if they are below 1000. -/
def Q3.printed (v : Q3) : Q3 := ⟨roundPlaces 3 v.x, roundPlaces 3 v.y, roundPlaces 3 v.z⟩

theorem roundPlaces_idem (q : ℚ) : roundPlaces 3 (roundPlaces 3 q) = roundPlaces 3 q := by
  conv_lhs => rw [show roundPlaces 3 q = ((roundHalfEven (q * 10 ^ 3) : ℤ) : ℚ) / 10 ^ 3 from rfl]
  rw [roundPlaces_exact]; rfl

theorem str_printed (l : Char) (hl : kindOf l = some .flt) (q : ℚ) :
    Word.str ⟨l, .num (roundPlaces 3 q)⟩ = Word.str ⟨l, .num q⟩ := by
  unfold Word.str Word.valueStr
  simp only [wordKind_eq_kindOf, hl]
  unfold cleanFloat
  rw [roundPlaces_idem]

theorem plain_printed (l : Char) (hl : kindOf l = some .flt) (hO : l ≠ 'O') (hT : l ≠ 'T') (q : ℚ) (hq : |q| < 999.9995) :
    PlainWord ⟨l, .num (roundPlaces 3 q)⟩ := by
  refine ⟨?_, hO, fun h => absurd h hT⟩
  unfold Printable
  simp only [hl]
  refine ⟨roundHalfEven (q * 10 ^ 3), 3, le_refl _, ?_, rfl⟩
  have h1 := roundHalfEven_err (q * 10 ^ 3)
  have h3 : |q * 10 ^ 3| < 999999.5 := by
    rw [abs_mul]; norm_num at hq ⊢; linarith
  generalize roundHalfEven (q * 10 ^ 3) = n at h1 ⊢
  generalize q * 10 ^ 3 = y at h1 h3
  have h4 : |(n : ℚ)| < 1000000 := by
    rw [abs_lt] at h3 ⊢
    rw [abs_le] at h1
    norm_num at h1 h3 ⊢
    constructor <;> linarith [h1.1, h1.2, h3.1, h3.2]
  exact_mod_cast h4

theorem linear_sorted (v : Q3) : (linearTo v).sortedParams = (linearTo v).params := by
  unfold GCode.sortedParams linearTo
  simp [List.insertionSort, List.orderedInsert]

/-- A line with its word, or blanks for it. -/
def lin (b : Bool) (v : Q3) : GCode := { linearTo v with ws := b }

theorem lin_str (b : Bool) (v : Q3) : (lin b v).str = (lin b v.printed).str := by
  have h1 : ∀ v, (lin b v).sortedParams = (linearTo v).params := fun v => linear_sorted v
  unfold GCode.str
  rw [h1, h1]
  simp only [linearTo, List.flatMap_cons, List.flatMap_nil, Q3.printed]
  rw [str_printed 'X' (by decide), str_printed 'Y' (by decide), str_printed 'Z' (by decide)]
  rfl

/-- Coordinates that can be printed. -/
def Q3.Small (v : Q3) : Prop := |v.x| < 999.9995 ∧ |v.y| < 999.9995 ∧ |v.z| < 999.9995

theorem linear_gok (v : Q3) : GOK (linearTo v) := by
  refine ⟨?_, ?_⟩
  · show (['X', 'Y', 'Z'] : List Char).Nodup
    decide
  · intro p hp
    have : p.letter ∈ (['X', 'Y', 'Z'] : List Char) := by
      simp only [linearTo, List.mem_cons, List.not_mem_nil, or_false] at hp
      rcases hp with rfl | rfl | rfl <;> simp
    have h2 : (['X', 'Y', 'Z'] : List Char).all (fun l => Cls.linearMove.params.contains l) = true := by decide +kernel
    show p.letter ∈ Cls.linearMove.params
    simpa using List.all_eq_true.1 h2 _ this

theorem linear_named (v : Q3) : Named (linearTo v) := by
  show wordClass ⟨'G', .num 1⟩ = some .linearMove
  decide +kernel

theorem linear_group : Cls.linearMove.group = some 1 ∧ Cls.linearMove.isSub .cannedCycle = false ∧
    Cls.linearMove.proc = .motion ∧ Cls.linearMove.modalParams = [] := by decide +kernel

theorem linear_plain (v : Q3) (h : v.Small) : PlainCode (linearTo v.printed) := by
  refine ⟨linear_gok _, linear_named _, rfl, ?_, linear_group.2.1⟩
  intro w hw
  simp only [linearTo, List.mem_cons, List.not_mem_nil, or_false] at hw
  rcases hw with rfl | rfl | rfl | rfl
  · refine ⟨?_, by decide, fun h => absurd h (by decide)⟩
    unfold Printable
    have : kindOf 'G' = some .code := by decide
    simp only [this]
    exact ⟨1, 0, by norm_num, by norm_num, by norm_num⟩
  · exact plain_printed 'X' (by decide) (by decide) (by decide) _ h.1
  · exact plain_printed 'Y' (by decide) (by decide) (by decide) _ h.2.1
  · exact plain_printed 'Z' (by decide) (by decide) (by decide) _ h.2.2

/-! ## Omitted words -/

/-- Whether the next G1 would be redundant. -/
def linearMode (m : Machine) : Bool :=
  match m.mode 1 with
  | none => false
  | some h => decide (h.word = ⟨'G', .num 1⟩)

theorem omit_linear (vs : List Q3) : ∀ (m : Machine), Reader m →
    omitFrom m (vs.map linearTo) =
      (match vs with | [] => [] | v :: vs => lin (linearMode m) v :: vs.map (lin true), .done) := by
  induction vs with
  | nil => intro m _; rfl
  | cons v vs ih =>
    intro m hm
    have hred : redundant m.mode (linearTo v) = linearMode m := by
      unfold redundant linearMode
      rw [show (linearTo v).cls.group = some 1 from linear_group.1]
      simp only
      cases m.mode 1 with
      | none => rfl
      | some h => simp only [decide_true, Bool.and_true]; rfl
    rw [List.map_cons]
    unfold omitFrom
    simp only [hred]
    have hg' : (if linearMode m = true then { linearTo v with ws := true } else linearTo v) = lin (linearMode m) v := by
      cases linearMode m <;> rfl
    rw [hg']
    have hgok : GOK (lin (linearMode m) v) := linear_gok v
    have hn : Named (lin (linearMode m) v) := linear_named v
    have hc : (lin (linearMode m) v).cls.isSub .cannedCycle = false := linear_group.2.1
    have hpr := process_after m hm.wf hm.dict _ hgok hc
    rw [processGcodes_single, hpr]
    simp only
    rw [ih _ (reader_after hm _ hgok hn hc)]
    have hlm : linearMode (after m (lin (linearMode m) v)) = true := by
      unfold linearMode
      rw [after_mode]
      unfold modeAfter
      rw [if_neg (by rw [show (lin _ v).cls = .linearMove from rfl, linear_group.2.2.1]; decide)]
      unfold setIn
      rw [show (lin _ v).cls.group = some 1 from linear_group.1]
      simp only [Function.update_self]
      rfl
    rw [hlm]
    cases vs <;> rfl

/-- The lines printed for the linearization do not change if the coordinates are rounded first. -/
theorem omitGen_linear (o : NormOpts) (vs : List Q3) :
    ((o.omitGen (vs.map linearTo, .done)).1.flatMap (fun g => o.writeOne [g] [] none none) =
      (o.omitGen ((vs.map Q3.printed).map linearTo, .done)).1.flatMap (fun g => o.writeOne [g] [] none none)) ∧
    (o.omitGen (vs.map linearTo, .done)).2 = .done := by
  have hw : ∀ b v, o.writeOne [lin b v] [] none none = o.writeOne [lin b v.printed] [] none none := by
    intro b v
    have : ∀ gs : List GCode, gs = [lin b v] ∨ gs = [lin b v.printed] →
        (if o.rmGcodes = [] then gs else gs.filter (fun g => decide (g.word ∉ o.rmGcodes))) =
          if o.rmGcodes = [] ∨ (⟨'G', .num 1⟩ : Word) ∉ o.rmGcodes then gs else [] := by
      rintro gs (rfl | rfl)
      all_goals
        by_cases h1 : o.rmGcodes = []
        · rw [if_pos h1, if_pos (.inl h1)]
        · rw [if_neg h1]
          by_cases h2 : (⟨'G', .num 1⟩ : Word) ∈ o.rmGcodes
          · rw [if_neg (by simp [h1, h2])]; simp [lin, linearTo, h2]
          · rw [if_pos (.inr h2)]; simp [lin, linearTo, h2]
    have ht : o.lineText [lin b v] [] none none = o.lineText [lin b v.printed] [] none none := by
      unfold NormOpts.lineText
      simp only
      rw [this _ (.inl rfl), this _ (.inr rfl)]
      by_cases hc : o.rmGcodes = [] ∨ (⟨'G', .num 1⟩ : Word) ∉ o.rmGcodes
      · rw [if_pos hc, if_pos hc]
        simp only [List.map_cons, List.map_nil, lin_str b v]
      · rw [if_neg hc, if_neg hc]
    unfold NormOpts.writeOne
    rw [ht]
  have hflat : ∀ b (vs : List Q3), (vs.map (lin b)).flatMap (fun g => o.writeOne [g] [] none none) =
      ((vs.map Q3.printed).map (lin b)).flatMap (fun g => o.writeOne [g] [] none none) := by
    intro b vs
    induction vs with
    | nil => rfl
    | cons v vs ih => rw [List.map_cons, List.map_cons, List.map_cons, List.flatMap_cons, List.flatMap_cons, hw, ih]
  unfold NormOpts.omitGen
  by_cases hf : o.full = true
  · rw [if_pos hf, if_pos hf]
    exact ⟨hflat false vs, rfl⟩
  · rw [if_neg hf, if_neg hf]
    simp only
    rw [omit_linear vs newNull (reader_null xyz), omit_linear (vs.map Q3.printed) newNull (reader_null xyz)]
    refine ⟨?_, rfl⟩
    simp only [Gen.andThen, List.append_nil]
    cases vs with
    | nil => rfl
    | cons v vs =>
      simp only [List.map_cons (f := Q3.printed)]
      rw [List.flatMap_cons, List.flatMap_cons, hw, hflat]

/-- The first lines are those for the first vertices. -/
theorem omitGen_first (o : NormOpts) (vs : List Q3) (n : ℕ) :
    (o.omitGen (vs.map linearTo, .done)).1.take n = (o.omitGen ((vs.take n).map linearTo, .done)).1 := by
  unfold NormOpts.omitGen
  by_cases hf : o.full = true
  · rw [if_pos hf, if_pos hf, List.map_take]
  · rw [if_neg hf, if_neg hf]
    simp only
    rw [omit_linear vs newNull (reader_null xyz), omit_linear (vs.take n) newNull (reader_null xyz)]
    simp only [Gen.andThen, List.append_nil]
    cases vs with
    | nil => simp
    | cons v vs => cases n with
      | zero => rfl
      | succ n => simp only [List.take_succ_cons, List.map_take]

theorem omitGen_take (o : NormOpts) (vs : List Q3) (n : ℕ) :
    ((o.omitGen (vs.map linearTo, .done)).1.take n).flatMap (fun g => o.writeOne [g] [] none none) =
      ((o.omitGen ((vs.map Q3.printed).map linearTo, .done)).1.take n).flatMap (fun g => o.writeOne [g] [] none none) := by
  rw [omitGen_first, omitGen_first, (omitGen_linear o _).1, List.map_take]

/-! ## Reading the lines -/

theorem stays_all {out : List GCode} (hp : ∀ g ∈ out, PlainCode g) :
    ∀ {b : Machine}, Sound b → (b.processAll out).2 = none := by
  induction out with
  | nil => exact fun _ => rfl
  | cons g gs ih =>
    intro b hb
    have hg := hp g (by simp)
    have h1 := process_after b hb.wf hb.dict g hg.gok hg.notCanned
    have hs := hb.process g hg.gok hg.named
    unfold processAll andThen
    rw [h1] at hs ⊢
    exact ih (fun x hx => hp x (by simp [hx])) hs

/-- The first `n` lines printed for plain moves do what the first `n` moves do. -/
theorem moves_read (o : NormOpts) (hr : o.rmGcodes = []) {b : Machine} (hb : Sound b) (out : List GCode)
    (hp : ∀ g ∈ out, PlainCode g) (hgr : ∀ g ∈ out, g.cls.group = some 1) (n : ℕ) :
    ∃ b', readLines b (((o.omitGen (out, .done)).1.take n).flatMap (fun g => o.writeOne [g] [] none none)) = (b', none) ∧
      NearTo (b.processAll (out.take n)).1 b' := by
  have hp' : ∀ g ∈ out.take n, PlainCode g := fun g hg => hp g (List.mem_of_mem_take hg)
  have hgr' : ∀ g ∈ out.take n, g.cls.group = some 1 := fun g hg => hgr g (List.mem_of_mem_take hg)
  obtain ⟨k1, k2⟩ := processAll_close (forall₂_canon (out.take n)) (fun g hg => (hp' g hg).gok)
    (⟨.refl b, rel_refl _⟩ : Close b b) hb.wf hb.wf
  rw [stays_all hp' hb] at k2
  have hread : readLines b ((out.take n).map GCode.str) = b.processAll ((out.take n).map canon) :=
    read_lines_plain b _ hp'
  unfold NormOpts.omitGen
  by_cases hf : o.full = true
  · rw [if_pos hf]
    simp only
    rw [written_lines o hr (List.forall₂_same.2 (fun g _ => ⟨rfl, rfl, rfl, fun hw => by
      rename_i hg'; rw [(hp' g hg').noWs] at hw; cases hw⟩)) hp' hgr' b, hread]
    exact ⟨_, Prod.ext rfl k2.symm, k1.near⟩
  · rw [if_neg hf]
    obtain ⟨out', e1, e2, e3⟩ := C47_same out hp
    have e1' : omitFrom newNull out = (out', .done) := e1
    rw [e1']
    have e4 : (Gen.andThen (out', .done) ([], .done)).1 = out' := by simp [Gen.andThen]
    rw [e4, written_lines o hr (List.forall₂_take n e2) hp' hgr' b]
    obtain ⟨a', c', f1, f2, f3⟩ := e3 (tight b) (tight_reader hb) n
    have g1 := lines_close ((out.take n).map GCode.str) (tight_close b) (tight_reader hb).sound hb
    have g2 := lines_close ((out'.take n).map GCode.str) (tight_close b) (tight_reader hb).sound hb
    rw [f1, hread] at g1
    rw [f2] at g2
    refine ⟨_, Prod.ext rfl g2.2.symm, ?_⟩
    exact (k1.near.trans g1.1.near.symm).trans (f3.near.trans g2.1.near)

/-! ## Where the lines lead -/

/-- The coordinate of an axis. -/
def Q3.at (v : Q3) : Axis → ℚ
  | .X => v.x
  | .Y => v.y
  | .Z => v.z
  | _ => 0

theorem not_bad {m : Machine} (h : Sound m) : ¬ m.BadSys := by
  rintro ⟨h1, -⟩
  obtain ⟨f, hf⟩ := h.dict
  rw [hf] at h1; cases h1

theorem mem_xyz {a : Axis} (h : a ∈ xyz) : a = .X ∨ a = .Y ∨ a = .Z := by
  revert h; revert a; decide

theorem linear_num (v : Q3) (a : Axis) (h : a ∈ xyz) : (linearTo v).num? a.letter = some (v.at a) := by
  have : a = .X ∨ a = .Y ∨ a = .Z := mem_xyz h
  rcases this with rfl | rfl | rfl
  all_goals
    simp [linearTo, GCode.num?, GCode.param, Axis.letter, Word.num, Q3.at]

/-- One line. -/
theorem linear_process {m : Machine} (hm : Sound m) (hax : m.axes = xyz) (v : Q3) :
    ∃ m', m.process (linearTo v) = (m', none) ∧ Stays m' m ∧ Sound m' ∧
      ∀ a ∈ xyz, m'.absPos.val a =
        if m.incremental then m.absPos.val a + v.at a else v.at a + m.state.offset.val a + m.sysOff a := by
  have h1 := process_motion m hm.wf (not_bad hm) hm.sync (linearTo v) (linear_gok v) (.inl linear_group.2.2.1)
  have h2 := process_stays m hm.wf hm.sync (linearTo v) (linear_gok v) linear_group.1
  have h3 := hm.process (linearTo v) (linear_gok v) (linear_named v)
  rw [h1] at h2 h3
  refine ⟨_, h1, h2, h3, ?_⟩
  intro a ha
  show m.target (coords m.axes (linearTo v)) a = _
  unfold target
  rw [coords_lookup, if_pos (by rw [hax]; exact ha), linear_num v a ha]

theorem Stays.incremental {a b : Machine} (h : Stays a b) : a.incremental = b.incremental := by
  have : a.mode.distance = b.mode.distance := h.mode 3 (by decide)
  unfold Machine.incremental
  rw [this]

theorem Stays.sysOff {a b : Machine} (h : Stays a b) : a.sysOff = b.sysOff := by
  funext x; unfold Machine.sysOff; rw [h.state]

/-- Where lines lead, one after the other. -/
def reached (inc : Bool) (off : Axis → ℚ) (s : Axis → ℚ) : List Q3 → Axis → ℚ
  | [] => s
  | v :: vs => reached inc off (fun a => if inc then s a + v.at a else v.at a + off a) vs

theorem reached_congr (inc : Bool) (off : Axis → ℚ) (vs : List Q3) : ∀ {s t : Axis → ℚ}, (∀ a ∈ xyz, s a = t a) →
    ∀ a ∈ xyz, reached inc off s vs a = reached inc off t vs a := by
  induction vs with
  | nil => exact fun h => h
  | cons v vs ih =>
    intro s t h
    exact ih (fun a ha => by simp only [h a ha])

theorem lines_process (vs : List Q3) : ∀ {m : Machine}, Sound m → m.axes = xyz →
    ∃ m', m.processAll (vs.map linearTo) = (m', none) ∧ Stays m' m ∧ Sound m' ∧
      ∀ a ∈ xyz, m'.absPos.val a =
        reached m.incremental (fun a => m.state.offset.val a + m.sysOff a) m.absPos.val vs a := by
  induction vs with
  | nil => exact fun hm _ => ⟨_, rfl, ⟨rfl, rfl, rfl, rfl, fun _ _ => rfl⟩, hm, fun _ _ => rfl⟩
  | cons v vs ih =>
    intro m hm hax
    obtain ⟨m₁, h1, h2, h3, h4⟩ := linear_process hm hax v
    obtain ⟨m₂, k1, k2, k3, k4⟩ := ih h3 (h2.axes.trans hax)
    refine ⟨m₂, ?_, k2.trans h2, k3, ?_⟩
    · rw [List.map_cons]
      unfold processAll andThen
      rw [h1]; exact k1
    · intro a ha
      rw [k4 a ha, h2.incremental, h2.state, h2.sysOff]
      exact reached_congr _ _ vs (fun a ha => by rw [h4 a ha]; simp only [add_assoc]) a ha

/-- In absolute mode the last line decides. -/
theorem reached_absolute (off : Axis → ℚ) (v : Q3) (vs : List Q3) : ∀ (s : Axis → ℚ), vs.getLast? = some v →
    reached false off s vs = fun a => v.at a + off a := by
  induction vs with
  | nil => intro s h; cases h
  | cons w ws ih =>
    intro s h
    cases ws with
    | nil => cases h; rfl
    | cons u us => exact ih _ (by simpa using h)

/-- In incremental mode the lines add up. -/
theorem reached_incremental (off : Axis → ℚ) (vs : List Q3) : ∀ (s : Axis → ℚ) (a : Axis),
    reached true off s vs a = s a + (vs.map (fun v => v.at a)).sum := by
  induction vs with
  | nil => intro s a; simp [reached]
  | cons w ws ih =>
    intro s a
    unfold reached
    rw [ih]
    simp only [if_true, List.map_cons, List.sum_cons]
    ring

/-! ## The vertices -/

/-- The coordinate of an axis. -/
def V3.at (v : V3) : Axis → ℝ
  | .X => v.x
  | .Y => v.y
  | .Z => v.z
  | _ => 0

/-- Coordinates off by at most `ε`. -/
def Approx (ε : ℚ) (q : Q3) (v : V3) : Prop := ∀ a ∈ xyz, |(q.at a : ℝ) - v.at a| ≤ ε

theorem round_err (q : ℚ) : |roundPlaces 3 q - q| ≤ 1 / 2000 := by
  have h := roundHalfEven_err (q * 10 ^ 3)
  unfold roundPlaces
  generalize roundHalfEven (q * 10 ^ 3) = n at h ⊢
  have e : (n : ℚ) / 10 ^ 3 - q = (n - q * 10 ^ 3) / 10 ^ 3 := by field_simp
  rw [e, abs_div]
  rw [div_le_iff₀ (by norm_num)]
  rw [abs_sub_comm]
  norm_num at h ⊢
  linarith

theorem round_exact (q : ℚ) (k : ℤ) (ε : ℚ) (hε : ε < 1 / 2000) (h : |(q : ℝ) - (k : ℝ) / 10 ^ 3| ≤ (ε : ℝ)) :
    ((roundPlaces 3 q : ℚ) : ℝ) = (k : ℝ) / 10 ^ 3 := by
  have h1 := round_err q
  have h0 : |q - (k : ℚ) / 10 ^ 3| ≤ ε := by exact_mod_cast h
  have h2 : |roundPlaces 3 q - (k : ℚ) / 10 ^ 3| < 1 / 1000 := by
    rw [abs_lt]
    rw [abs_le] at h0 h1
    constructor <;> linarith [h0.1, h0.2, h1.1, h1.2]
  have h3 : roundPlaces 3 q = (k : ℚ) / 10 ^ 3 := by
    unfold roundPlaces at h2 ⊢
    generalize roundHalfEven (q * 10 ^ 3) = n at h2 ⊢
    have e : (n : ℚ) / 10 ^ 3 - (k : ℚ) / 10 ^ 3 = (((n - k : ℤ)) : ℚ) / 10 ^ 3 := by push_cast; ring
    rw [e, abs_div, div_lt_iff₀ (by norm_num)] at h2
    have h4 : |((n - k : ℤ) : ℚ)| < 1 := by norm_num at h2 ⊢; exact h2
    have h5 : |n - k| < 1 := by exact_mod_cast h4
    have h6 : n = k := by rw [Int.abs_lt_one_iff] at h5; omega
    rw [h6]
  rw [h3]; push_cast; rfl

theorem printed_at (q : Q3) (a : Axis) (h : a ∈ xyz) : q.printed.at a = roundPlaces 3 (q.at a) := by
  have : a = .X ∨ a = .Y ∨ a = .Z := mem_xyz h
  rcases this with rfl | rfl | rfl <;> rfl

theorem printed_near {ε : ℚ} {q : Q3} {v : V3} (h : Approx ε q v) : Approx (ε + 1 / 2000) q.printed v := by
  intro a ha
  rw [printed_at q a ha]
  have h1 := h a ha
  have h2 : |((roundPlaces 3 (q.at a) : ℚ) : ℝ) - (q.at a : ℝ)| ≤ 1 / 2000 := by
    have h3 := round_err (q.at a)
    have h4 : ((|roundPlaces 3 (q.at a) - q.at a| : ℚ) : ℝ) ≤ ((1 / 2000 : ℚ) : ℝ) := by exact_mod_cast h3
    push_cast at h4
    exact h4
  generalize ((roundPlaces 3 (q.at a) : ℚ) : ℝ) = r at h2 ⊢
  generalize ((q.at a : ℚ) : ℝ) = u at h1 h2
  rw [abs_le] at h1 h2 ⊢
  push_cast
  constructor <;> linarith [h1.1, h1.2, h2.1, h2.2]

theorem approx_small {ε : ℚ} (hε : ε < 1 / 2000) {q : Q3} {v : V3} (h : Approx ε q v) (hv : ∀ a ∈ xyz, |v.at a| ≤ 999) :
    q.Small := by
  have key : ∀ a ∈ xyz, |q.at a| < 999.9995 := by
    intro a ha
    have h1 := h a ha
    have h2 := hv a ha
    have h3 : (ε : ℝ) < ((1 / 2000 : ℚ) : ℝ) := by exact_mod_cast hε
    push_cast at h3
    have h4 : |((q.at a : ℚ) : ℝ)| < ((999.9995 : ℚ) : ℝ) := by
      rw [abs_lt]
      rw [abs_le] at h1 h2
      norm_num
      constructor <;> linarith [h1.1, h1.2, h2.1, h2.2]
    exact_mod_cast h4
  exact ⟨key .X (by decide), key .Y (by decide), key .Z (by decide)⟩

/-! ## Where the printed lines lead -/

/-- The positions after each line. -/
def stops (inc : Bool) (off : Axis → ℚ) (s : Axis → ℚ) : List Q3 → List (Axis → ℚ)
  | [] => []
  | v :: vs => (fun a => if inc then s a + v.at a else v.at a + off a) ::
      stops inc off (fun a => if inc then s a + v.at a else v.at a + off a) vs

theorem stops_reached (inc : Bool) (off : Axis → ℚ) (vs : List Q3) : ∀ (s : Axis → ℚ) (n : ℕ) (P : Axis → ℚ),
    (stops inc off s vs)[n]? = some P → reached inc off s (vs.take (n + 1)) = P := by
  induction vs with
  | nil => intro s n P h; simp [stops] at h
  | cons v vs ih =>
    intro s n P h
    unfold stops at h
    cases n with
    | zero => simpa [reached] using h
    | succ n =>
      rw [List.getElem?_cons_succ] at h
      rw [List.take_succ_cons]
      exact ih _ n P h

theorem stops_length (inc : Bool) (off : Axis → ℚ) (vs : List Q3) : ∀ (s : Axis → ℚ), (stops inc off s vs).length = vs.length := by
  induction vs with
  | nil => exact fun _ => rfl
  | cons v vs ih => intro s; unfold stops; rw [List.length_cons, List.length_cons, ih]

theorem stops_last (inc : Bool) (off : Axis → ℚ) (vs : List Q3) (s P : Axis → ℚ)
    (h : (stops inc off s vs).getLast? = some P) : reached inc off s vs = P := by
  rw [List.getLast?_eq_getElem?, stops_length] at h
  have := stops_reached inc off vs s _ P h
  cases vs with
  | nil => simp [stops] at h
  | cons v vs => rwa [List.length_cons, Nat.add_sub_cancel, ← List.length_cons (a := v), List.take_length] at this

/-- A position in machine coordinates and a vertex in those of the program. -/
def At (off : Axis → ℚ) (τ : ℚ) (P : Axis → ℚ) (v : V3) : Prop := ∀ a ∈ xyz, |((P a - off a : ℚ) : ℝ) - v.at a| ≤ τ

theorem stops_absolute (off : Axis → ℚ) (ε : ℚ) {qs : List Q3} {vs : List V3} (h : List.Forall₂ (Approx ε) qs vs) :
    ∀ s, List.Forall₂ (At off (ε + 1 / 2000)) (stops false off s (qs.map Q3.printed)) vs := by
  induction h with
  | nil => exact fun _ => .nil
  | @cons q v qs vs h1 _ ih =>
    intro s
    rw [List.map_cons]
    unfold stops
    refine .cons ?_ (ih _)
    intro a ha
    have := printed_near h1 a ha
    simpa using this

theorem add_at (u v : V3) (a : Axis) : (u + v).at a = u.at a + v.at a := by
  cases a <;> simp [V3.at] <;> rfl

theorem stops_incremental (off : Axis → ℚ) (ε : ℚ) (hε : ε < 1 / 2000) {qs : List Q3} {vs : List V3}
    (h : List.Forall₂ (Approx ε) qs vs)
    (hk : ∀ v ∈ vs, ∃ i j k : ℤ, v = ⟨i / 10 ^ (3 : ℤ), j / 10 ^ (3 : ℤ), k / 10 ^ (3 : ℤ)⟩) :
    ∀ (s : Axis → ℚ) (p : V3), At off 0 s p →
      List.Forall₂ (At off 0) (stops true off s (qs.map Q3.printed)) (summed p vs) := by
  induction h with
  | nil => exact fun _ _ _ => .nil
  | @cons q v qs vs h1 _ ih =>
    intro s p hs
    have h2 : ∀ a ∈ xyz, ((q.printed.at a : ℚ) : ℝ) = v.at a := by
      obtain ⟨i, j, k, rfl⟩ := hk v (by simp)
      intro a ha
      have h3 := h1 a ha
      rw [printed_at q a ha]
      have : a = .X ∨ a = .Y ∨ a = .Z := mem_xyz ha
      have hz : ((10 : ℝ) ^ (3 : ℤ)) = 10 ^ 3 := by norm_num
      rcases this with rfl | rfl | rfl
      · rw [show V3.at _ .X = (i : ℝ) / 10 ^ (3 : ℤ) from rfl, hz] at h3 ⊢; exact round_exact _ i ε hε h3
      · rw [show V3.at _ .Y = (j : ℝ) / 10 ^ (3 : ℤ) from rfl, hz] at h3 ⊢; exact round_exact _ j ε hε h3
      · rw [show V3.at _ .Z = (k : ℝ) / 10 ^ (3 : ℤ) from rfl, hz] at h3 ⊢; exact round_exact _ k ε hε h3
    rw [List.map_cons]
    unfold stops summed
    have hnew : At off 0 (fun a => if true = true then s a + q.printed.at a else q.printed.at a + off a) (p + v) := by
      intro a ha
      have h3 := hs a ha
      rw [add_at, ← h2 a ha]
      simp only [if_true]
      push_cast at h3 ⊢
      rw [abs_le] at h3 ⊢
      constructor <;> linarith [h3.1, h3.2]
    exact .cons hnew (ih (fun x hx => hk x (by simp [hx])) _ _ hnew)

theorem near_at {u v : V3} (h : Near 3 u v) : ∀ a ∈ xyz, |u.at a - v.at a| ≤ 1 / 2000 := by
  intro a ha
  have hz : (1 : ℝ) / 2 / 10 ^ (3 : ℤ) = 1 / 2000 := by norm_num
  obtain ⟨h1, h2, h3⟩ := h
  rw [hz] at h1 h2 h3
  have : a = .X ∨ a = .Y ∨ a = .Z := mem_xyz ha
  rcases this with rfl | rfl | rfl
  · exact h1
  · exact h2
  · exact h3

theorem forall₂_trans {α β γ : Type*} {R : α → β → Prop} {S : β → γ → Prop} {T : α → γ → Prop}
    (hT : ∀ a b c, R a b → S b c → T a c) {as : List α} {bs : List β} (h : List.Forall₂ R as bs) :
    ∀ {cs : List γ}, List.Forall₂ S bs cs → List.Forall₂ T as cs := by
  induction h with
  | nil => intro cs h; cases h; exact .nil
  | cons h1 _ ih => intro cs h; cases h with | cons k1 k2 => exact .cons (hT _ _ _ h1 k1) (ih k2)

theorem forall₂_left {α β : Type*} {R : α → β → Prop} {as : List α} {bs : List β} (h : List.Forall₂ R as bs) :
    ∀ {a}, a ∈ as → ∃ b ∈ bs, R a b := by
  induction h with
  | nil => intro a ha; cases ha
  | @cons a' b' _ _ h1 _ ih =>
    intro a ha
    rcases List.mem_cons.1 ha with rfl | ha
    · exact ⟨b', by simp, h1⟩
    · obtain ⟨b, hb, hh⟩ := ih ha
      exact ⟨b, by simp [hb], hh⟩

/-- The exact vertices of a linearized arc, in the coordinates of the program, whatever the distance
mode; the positions after each printed line are near them. -/
theorem stops_near (g : GCode) (start : Position) (plane : Option Cls) (am : ArcMethod) (incr arcIncr : Bool) (e : ℝ)
    (vs : List V3) (h : linearizeArc g start plane (some am) incr arcIncr e 3 = (vs, .done))
    (ε : ℚ) (hε0 : 0 ≤ ε) (hε : ε < 1 / 2000) (qs : List Q3) (hq : List.Forall₂ (Approx ε) qs vs) (off s : Axis → ℚ)
    (hs : ∀ a ∈ xyz, start.val a = s a - off a) :
    ∃ p sv q a ls, Done g start plane (some am) incr arcIncr e p am sv q a ls ∧
      List.Forall₂ (At off (ε + 1 / 2000)) (stops incr off s (qs.map Q3.printed)) (ls.map Prod.snd) := by
  obtain ⟨p, m, sv, q, a, ls, D, rfl⟩ := linearize_done h
  obtain rfl : am = m := by have := D.method; cases this; rfl
  refine ⟨p, sv, q, a, ls, D, ?_⟩
  cases incr with
  | false => exact stops_absolute off ε hq s
  | true =>
    rw [if_pos rfl] at hq
    have h0 : At off 0 s sv := by
      intro a ha
      have hsv := D.start
      unfold Position.vector at hsv
      have h1 := hs a ha
      have : sv.at a = (start.val a : ℝ) := by
        rw [← hsv]
        have : a = .X ∨ a = .Y ∨ a = .Z := mem_xyz ha
        rcases this with rfl | rfl | rfl <;> rfl
      rw [this, h1]; simp
    have h1 := stops_incremental off ε hε hq (C60_multiples 3 sv _) s sv h0
    refine forall₂_trans ?_ h1 (C60_no_drift 3 sv (ls.map Prod.snd))
    intro P u v hP hu x hx
    have e1 := hP x hx
    have e2 := near_at hu x hx
    have e3 : (0 : ℝ) ≤ ε := by exact_mod_cast hε0
    push_cast at e1 ⊢
    rw [abs_le] at e1 e2 ⊢
    constructor <;> linarith [e1.1, e1.2, e2.1, e2.2]

/-! ## An arc -/

/-- What is added to the program's coordinates. -/
def offOf (m : Machine) (a : Axis) : ℚ := m.state.offset.val a + m.sysOff a

/-- What is computed is off by at most `ε`, for vertices with coordinates up to 999. -/
def FloatsOK (ε : ℚ) (fl : Floats) : Prop :=
  ∀ m g vs, (∀ v ∈ vs, ∀ a ∈ xyz, |v.at a| ≤ 999) → List.Forall₂ (Approx ε) (fl m g vs) vs

/-- Where the arc leads. -/
theorem arc_target {m : Machine} (hm : Sound m) (hax : m.axes = xyz) (g : GCode) (hok : GOK g) (hn : Named g)
    (harc : g.cls.isSub .arcMove = true) (start : Position) (hp : m.pos = .ok start) (sv : V3)
    (hsv : start.vector = sv) :
    ∃ m', m.process g = (m', none) ∧ Stays m' m ∧ Sound m' ∧ m'.mode 1 = some (copyOf g) ∧
      ∀ a ∈ xyz, ((m'.absPos.val a - offOf m a : ℚ) : ℝ) = (g.arcEnd sv m.incremental).at a := by
  have hpr := arc_proc _ harc
  have hgr : g.cls.group = some 1 := moving_group _ (.inl hpr)
  have h1 := process_motion m hm.wf (not_bad hm) hm.sync g hok (.inl hpr)
  have h2 := process_stays m hm.wf hm.sync g hok hgr
  have h3 := hm.process g hok hn
  have h4 := process_slot m hm.wf g hok
  rw [if_neg (by rw [hpr]; decide), if_pos hgr] at h4
  rw [h1] at h2 h3 h4
  refine ⟨_, h1, h2, h3, h4, ?_⟩
  rw [pos_ok m hm.wf (not_bad hm)] at hp
  obtain rfl := Except.ok.inj hp
  unfold Position.vector at hsv
  obtain rfl := hsv
  intro a ha
  show ((m.target (coords m.axes g) a - offOf m a : ℚ) : ℝ) = _
  unfold target
  rw [coords_lookup, if_pos (by rw [hax]; exact ha)]
  unfold GCode.arcEnd offOf
  cases hi : m.incremental with
  | true =>
    rcases mem_xyz ha with rfl | rfl | rfl
    all_goals
      simp only [if_true, Axis.letter, add_at]
      simp only [V3.at]
    · cases g.num? 'X' <;> simp <;> ring
    · cases g.num? 'Y' <;> simp <;> ring
    · cases g.num? 'Z' <;> simp <;> ring
  | false =>
    rcases mem_xyz ha with rfl | rfl | rfl
    all_goals
      simp only [Bool.false_eq_true, if_false, Axis.letter]
      simp only [V3.at]
    · cases g.num? 'X' <;> simp <;> ring
    · cases g.num? 'Y' <;> simp <;> ring
    · cases g.num? 'Z' <;> simp <;> ring

theorem omitGen_done {o : NormOpts} {out : List GCode} {st : Status} (h : (o.omitGen (out, st)).2 = .done) : st = .done := by
  unfold NormOpts.omitGen at h
  split_ifs at h
  · exact h
  · unfold Gen.andThen at h
    cases hq : (omitFrom newNull out).2 with
    | done => rw [hq] at h; exact h
    | _ => rw [hq] at h; simp only at h; rw [hq] at h; cases h

/-- The vertices of the linearization on machine `m`. -/
noncomputable def arcVertices (x : ArcOpts) (m : Machine) (p : Position) (am : ArcMethod) (g : GCode) : List V3 :=
  (linearizeArc g p (m.mode.plane.map GCode.cls) (some am) m.incremental (arcIncremental m) x.precision 3).1

/-- The lines read by any machine in the same modes. -/
theorem printed_read (o : NormOpts) (hr : o.rmGcodes = []) {b : Machine} (hb : Sound b) (hax : b.axes = xyz) (qs : List Q3)
    (hq : ∀ q ∈ qs, q.Small) (n : ℕ) :
    ∃ b', readLines b (((o.omitGen ((qs.map Q3.printed).map linearTo, .done)).1.take n).flatMap
        (fun g => o.writeOne [g] [] none none)) = (b', none) ∧ Sound b' ∧ b'.axes = xyz ∧ b'.ignoreInvalid = b.ignoreInvalid ∧
      b'.state = b.state ∧ b'.absPos.unit = b.absPos.unit ∧
      (∀ k, k ≠ 1 → Option.Rel SameGCode (b.mode k) (b'.mode k)) ∧
      ∀ a ∈ xyz, b'.absPos.val a = reached b.incremental (offOf b) b.absPos.val ((qs.map Q3.printed).take n) a := by
  have hpl : ∀ g ∈ (qs.map Q3.printed).map linearTo, PlainCode g ∧ g.cls.group = some 1 := by
    intro g hg
    simp only [List.mem_map, exists_exists_and_eq_and] at hg
    obtain ⟨q, hqm, rfl⟩ := hg
    exact ⟨linear_plain q (hq q hqm), linear_group.1⟩
  obtain ⟨b', h1, h2⟩ := moves_read o hr hb _ (fun g hg => (hpl g hg).1) (fun g hg => (hpl g hg).2) n
  rw [← List.map_take] at h2
  obtain ⟨b'', k1, k2, k3, k4⟩ := lines_process ((qs.map Q3.printed).take n) hb hax
  rw [k1] at h2
  have hs := hb.lines (((o.omitGen ((qs.map Q3.printed).map linearTo, .done)).1.take n).flatMap
        (fun g => o.writeOne [g] [] none none))
  rw [h1] at hs
  refine ⟨b', h1, hs, h2.axes.symm.trans (k2.axes.trans hax), h2.ignore.symm.trans k2.ignore, h2.state.symm.trans k2.state, ?_,
    fun k hk => ?_, fun a ha => ?_⟩
  · exact (congrArg Position.unit h2.abs).symm.trans k2.unit
  · have := h2.mode k hk
    simp only at this
    rwa [k2.mode k hk] at this
  · have := congrFun (congrArg Position.val h2.abs) a
    rw [← this]
    exact k4 a ha

/-- An arc: the lines printed for it, read by a machine behind the script's one, and the arc on the
script's machine. -/
theorem arc_lands (o : NormOpts) (hr : o.rmGcodes = []) (x : ArcOpts) (fl : Floats) {ε : ℚ} (hε0 : 0 ≤ ε)
    (hε : ε < 1 / 2000) (hfl : FloatsOK ε fl) {cc : List Word} {τ : ℚ} (hτ : 0 ≤ τ) {m c b : Machine} (h : Behind cc m c)
    (hcb : Off τ c b) (hm : Sound m) (hc : Sound c) (hb : Sound b) (hax : m.axes = xyz) (g : GCode) (hok : GOK g)
    (hn : Named g) (harc : g.cls.isSub .arcMove = true) (hcc : g.word ∈ cc)
    (hsm : ∀ p am, m.pos = .ok p → ∀ v ∈ arcVertices x m p am g, ∀ a ∈ xyz, |v.at a| ≤ 999) :
    let r := (o.putArc x fl m g).andThen (fun m => .ofM (m.processGcodes [g] []))
    r.status = .done → m.process g = (r.m, none) ∧ ∃ c' b', readLines b r.out = (b', none) ∧ Behind cc r.m c' ∧
      Off ((if m.incremental then τ else 0) + (ε + 1 / 2000)) c' b' ∧ Sound r.m ∧ Sound c' ∧ Sound b' := by
  intro r hd
  revert hd
  show r.status = .done → _
  simp only [r]
  unfold NormOpts.putArc
  cases hp : m.pos with
  | error e => intro hd; cases hd
  | ok p =>
    simp only
    cases ham : x.method g.word with
    | error e => intro hd; cases hd
    | ok am =>
      simp only
      intro hd
      rw [putAll_eq] at hd ⊢
      have hdone : (o.arcMoves x fl m p am g).2 = .done := by
        cases hq : (o.arcMoves x fl m p am g).2 with
        | done => rfl
        | _ => rw [hq] at hd; cases hd
      have hmv : o.arcMoves x fl m p am g = o.omitGen ((fl m g (arcVertices x m p am g)).map linearTo,
        (linearizeArc g p (m.mode.plane.map GCode.cls) (some am) m.incremental (arcIncremental m) x.precision 3).2) := rfl
      rw [hmv] at hdone
      have hst := omitGen_done hdone
      rw [hst] at hmv
      have hL : linearizeArc g p (m.mode.plane.map GCode.cls) (some am) m.incremental (arcIncremental m) x.precision 3 =
        (arcVertices x m p am g, .done) := Prod.ext rfl hst
      set vs := arcVertices x m p am g with hvs
      have hsmall := hsm p am hp
      rw [← hvs] at hsmall
      have hap := hfl m g vs hsmall
      generalize hqs : fl m g vs = qs at hap hmv
      have hqsm : ∀ q ∈ qs, q.Small := by
        intro q hq
        obtain ⟨v, hv, hqv⟩ := forall₂_left hap hq
        exact approx_small hε hqv (hsmall v hv)
      have hpos := hp
      rw [pos_ok m hm.wf (not_bad hm)] at hpos
      have hpv : ∀ a ∈ xyz, p.val a = m.absPos.val a - offOf m a := by
        intro a _
        rw [← Except.ok.inj hpos]
        show m.absPos.val a - m.sysOff a - m.state.offset.val a = _
        unfold offOf; ring
      obtain ⟨pl, sv, q, aa, ls, D, hstops⟩ := stops_near g p _ am _ _ _ vs hL ε hε0 hε qs hap (offOf m) m.absPos.val hpv
      obtain ⟨vs', hsh, -⟩ := done_shape D
      obtain ⟨m', t1, t2, t3, t4, t5⟩ := arc_target hm hax g hok hn harc p hp sv D.start
      have hlast : ∀ a ∈ xyz, |reached m.incremental (offOf m) m.absPos.val (qs.map Q3.printed) a - m'.absPos.val a| ≤ ε + 1 / 2000 := by
        rw [hsh] at hstops
        obtain ⟨P, hP, hPe⟩ := forall₂_getLast hstops (g.arcEnd sv m.incremental) (by simp)
        have hre := stops_last _ _ _ _ _ hP
        intro a ha
        rw [hre]
        have e1 := hPe a ha
        rw [← t5 a ha] at e1
        have e2 : |(P a - offOf m a) - (m'.absPos.val a - offOf m a)| ≤ ε + 1 / 2000 := by exact_mod_cast e1
        rw [sub_sub_sub_cancel_right] at e2
        exact e2
      have hnil : qs ≠ [] := by
        rintro rfl
        cases hstops' : ls.map Prod.snd with
        | nil => rw [hstops'] at hsh; simp at hsh
        | cons _ _ => rw [hstops'] at hstops; cases hstops
      -- what was printed
      have hout : (o.omitGen (qs.map linearTo, .done)).1.flatMap (fun g => o.writeOne [g] [] none none) =
        (o.omitGen ((qs.map Q3.printed).map linearTo, .done)).1.flatMap (fun g => o.writeOne [g] [] none none) :=
        (omitGen_linear o qs).1
      have hcax : c.axes = xyz := h.near.axes.symm.trans hax
      have hbax : b.axes = xyz := hcb.axes.symm.trans hcax
      obtain ⟨c₁, r1, r2, r3, r4, r5, r6, r7, r8⟩ := printed_read o hr hc hcax qs hqsm
        (o.omitGen ((qs.map Q3.printed).map linearTo, .done)).1.length
      obtain ⟨b₁, u1, u2, u3, u4, u5, u6, u7, u8⟩ := printed_read o hr hb hbax qs hqsm
        (o.omitGen ((qs.map Q3.printed).map linearTo, .done)).1.length
      rw [List.take_length] at r1 u1
      have hlen : (qs.map Q3.printed).take (o.omitGen ((qs.map Q3.printed).map linearTo, .done)).1.length = qs.map Q3.printed := by
        apply List.take_of_length_le
        unfold NormOpts.omitGen
        split_ifs
        · simp
        · simp only
          rw [omit_linear (qs.map Q3.printed) newNull (reader_null xyz)]
          simp only [Gen.andThen, List.append_nil]
          cases qs <;> simp
      rw [hlen] at r8 u8
      have hoff := lines_off hτ ((o.omitGen ((qs.map Q3.printed).map linearTo, .done)).1.flatMap
        (fun g => o.writeOne [g] [] none none)) hcb hc hb
      rw [r1, u1] at hoff
      obtain ⟨hoff, -⟩ := hoff
      simp only at hoff
      have hinc : c.incremental = m.incremental := by
        have h3 := h.near.mode 3 (by decide)
        unfold Machine.incremental
        show (match c.mode 3 with | some g => _ | none => _) = (match m.mode 3 with | some g => _ | none => _)
        generalize m.mode 3 = u at h3
        generalize c.mode 3 = w at h3
        cases h3 with
        | none => rfl
        | some s => simp only [s.1]
      have hoffc : offOf c = offOf m := by
        funext a; unfold offOf; rw [h.near.sysOff, h.near.state]
      have hoffb : offOf b = offOf m := by
        rw [← hoffc]; funext a; unfold offOf; rw [hcb.sysOff, hcb.state]
      have hg1 : m.processGcodes [g] [] = (m', none) := by
        rw [processGcodes_sorted, execSort_single, processAll_one, t1]
      have hres : ((⟨(o.arcMoves x fl m p am g).1.flatMap (fun g => o.writeOne [g] [] none none), m,
          (o.arcMoves x fl m p am g).2⟩ : NormRes).andThen (fun m => .ofM (m.processGcodes [g] []))) =
          ⟨(o.omitGen ((qs.map Q3.printed).map linearTo, .done)).1.flatMap (fun g => o.writeOne [g] [] none none), m', .done⟩ := by
        rw [hmv, hout, (omitGen_linear o qs).2]
        unfold NormRes.andThen
        simp only [hg1, NormRes.ofM, List.append_nil]
      rw [hres]
      refine ⟨t1, { c₁ with absPos := m'.absPos }, b₁, u1, ⟨⟨?_, ?_, ?_, rfl, ?_⟩, .inr (.inl ⟨copyOf g, t4, hcc⟩)⟩,
        ⟨hoff.axes, hoff.ignore, hoff.mode, hoff.state, ?_, ?_⟩, t3, ⟨⟨?_, t3.wf.absWF, r2.wf.sys, r2.wf.off, r2.wf.offWF,
          r2.wf.lo, r2.wf.hi⟩, r2.ok, r2.named, r2.noWs, r2.sync, r2.dict⟩, u2⟩
      · exact (t2.axes.trans hax).trans r3.symm
      · exact t2.ignore.trans (h.near.ignore.trans r4.symm)
      · exact t2.state.trans (h.near.state.trans r5.symm)
      · intro k hk
        have e1 := h.near.mode k hk
        have e2 := r7 k hk
        have e3 := t2.mode k hk
        show Option.Rel SameGCode (m'.mode k) (c₁.mode k)
        rw [e3]
        generalize m.mode k = y1 at e1
        generalize c.mode k = y2 at e1 e2
        generalize c₁.mode k = y3 at e2
        cases e1 with
        | none => exact e2
        | some s => cases e2 with
          | some s' => exact .some ⟨s.1.trans s'.1, s.2.1.trans s'.2.1, s.2.2.trans s'.2.2⟩
      · show m'.absPos.unit = b₁.absPos.unit
        rw [t2.unit, u6, ← hcb.unit, ← congrArg Position.unit h.near.abs]
      · intro a
        show |m'.absPos.val a - b₁.absPos.val a| ≤ _
        by_cases ha : a ∈ xyz
        · have e1 := hlast a ha
          have e2 := hoff.dist a
          rw [r8 a ha, hinc, hoffc, ← h.near.abs] at e2
          cases hi : m.incremental with
          | true =>
            rw [hi] at e1 e2
            simp only [if_true]
            generalize reached true (offOf m) m.absPos.val (qs.map Q3.printed) a = y at e1 e2
            rw [abs_le] at e1 e2 ⊢
            constructor <;> linarith [e1.1, e1.2, e2.1, e2.2]
          | false =>
            have e3 := u8 a ha
            rw [← hcb.incremental, hinc, hoffb, hi] at e3
            rw [hi] at e1
            simp only [Bool.false_eq_true, if_false, zero_add]
            obtain ⟨w, hw⟩ : ∃ w, (qs.map Q3.printed).getLast? = some w := by
              cases hw : (qs.map Q3.printed).getLast? with
              | some w => exact ⟨w, rfl⟩
              | none => rw [List.getLast?_eq_none_iff, List.map_eq_nil_iff] at hw; exact absurd hw hnil
            rw [reached_absolute _ w _ _ hw] at e1 e3
            rw [e3, abs_sub_comm]; exact e1
        · rw [abs_outside m' t3.wf a (by rw [t2.axes, hax]; exact ha), abs_outside b₁ u2.wf a (by rw [u3]; exact ha)]
          have : 0 ≤ (if m.incremental = true then τ else 0) := by split_ifs <;> [exact hτ; exact le_refl 0]
          simp only [sub_self, abs_zero]
          linarith
      · show m'.absPos.axes = c₁.axes
        rw [t3.wf.abs, t2.axes, hax, r3]

/-! ## Programs: specification -/

/-- A line whose arc `g` (after `befores`, before `afters`) can be replaced: all words print exactly,
no two gcodes of one group are shown on one line, and the vertices have coordinates up to 999. -/
structure Linearizes (o : NormOpts) (x : ArcOpts) (m : Machine) (l : Line) (befores : List GCode) (g : GCode)
    (afters : List GCode) : Prop where
  plainB : ∀ w ∈ befores.flatMap (fun x => x.word :: x.params), PlainWord w
  plainG : ∀ w ∈ g.word :: g.params, PlainWord w
  plainA : ∀ w ∈ afters.flatMap (fun x => x.word :: x.params), PlainWord w
  conflictB : o.singles = false → ¬ Conflict befores
  conflictA : o.singles = false → ¬ Conflict afters
  comment : o.rmComments = true ∨ l.macro? = none ∨ ∀ c, l.comment = some (.semicolon c) → c = []
  small : ∀ p am, (m.processAll befores).1.pos = .ok p →
    ∀ v ∈ arcVertices x (m.processAll befores).1 p am g, ∀ a ∈ xyz, |v.at a| ≤ 999

/-- The line, read by machine `m`: an arc or a cycle to be replaced can be, any other line is tidy. -/
def LineReplaces (o : NormOpts) (x : ArcOpts) (fuel : ℕ) (m : Machine) (t : List Char) : Prop :=
  ∀ l gs, Line.ofText t = .ok l → m.blockModalGcodes l.block = .ok gs →
    if x.on && gs.any (fun g => g.cls.isSub .arcMove) then
      ∀ befores g afters, splitGcodes gs .arcMove true = (befores, [g], afters) → Linearizes o x m l befores g afters
    else if o.cannedExpand && gs.any (fun g => decide (g.word ∈ o.cannedCodes)) then
      ∀ befores g afters, splitGcodes gs .cannedCycle true = (befores, [g], afters) →
        Expands o fuel m l befores g afters
    else if o.full then Tidy o l gs [] else Tidy o l l.block.gcodes l.block.modalParams

/-- All lines, as they are reached. -/
def LinesReplace (o : NormOpts) (x : ArcOpts) (fuel : ℕ) (m : Machine) : List (List Char) → Prop
  | [] => True
  | t :: ts => LineReplaces o x fuel m t ∧ LinesReplace o x fuel (m.processStr t).1 ts

/-- For the arc on a line read by machine `m`: whether distances are incremental where it is reached. -/
def lineArcs (m : Machine) (t : List Char) : List Bool :=
  match Line.ofText t with
  | .error _ => []
  | .ok l =>
    match m.blockModalGcodes l.block with
    | .error _ => []
    | .ok gs =>
      match splitGcodes gs .arcMove true with
      | (befores, [_], _) => [(m.processAll befores).1.incremental]
      | _ => []

/-- The same for all arcs of a program. -/
def arcsOf (m : Machine) : List (List Char) → List Bool
  | [] => []
  | t :: ts => lineArcs m t ++ arcsOf (m.processStr t).1 ts

/-- Two machines agree on everything but the motion mode, the range, and the position, which is the
same up to `τ` along each axis. -/
def CloseButMotion (τ : ℚ) (a b : Machine) : Prop :=
  (∃ p q, a.pos = .ok p ∧ b.pos = .ok q ∧ ∀ x, |p.val x - q.val x| ≤ τ) ∧ a.state = b.state ∧ a.axes = b.axes ∧
    ∀ k, k ≠ 1 → Option.Rel SameGCode (a.mode k) (b.mode k)

/-! ## Programs: steps -/

/-- How far off the reader may be after arcs, from how far it was before. -/
def drift (η : ℚ) (τ : ℚ) (l : List Bool) : ℚ := l.foldl (fun τ inc => (if inc then τ else 0) + η) τ

theorem drift_nonneg {η : ℚ} (hη : 0 ≤ η) (l : List Bool) : ∀ {τ : ℚ}, 0 ≤ τ → 0 ≤ drift η τ l := by
  induction l with
  | nil => exact fun h => h
  | cons b l ih =>
    intro τ h
    refine ih ?_
    cases b <;> simp <;> linarith

theorem drift_append (η τ : ℚ) (l l' : List Bool) : drift η τ (l ++ l') = drift η (drift η τ l) l' := List.foldl_append

theorem drift_absolute {η : ℚ} (hη : 0 ≤ η) (l : List Bool) (hl : ∀ b ∈ l, b = false) : ∀ {τ : ℚ}, τ ≤ η → drift η τ l ≤ η := by
  induction l with
  | nil => exact fun h => h
  | cons b l ih =>
    intro τ h
    obtain rfl := hl b (by simp)
    exact ih (fun x hx => hl x (by simp [hx])) (by simp)

theorem drift_count {η : ℚ} (hη : 0 ≤ η) (l : List Bool) : ∀ {τ : ℚ}, 0 ≤ τ → drift η τ l ≤ τ + l.length * η := by
  induction l with
  | nil => intro τ _; simp [drift]
  | cons b l ih =>
    intro τ h
    have : drift η τ (b :: l) = drift η ((if b then τ else 0) + η) l := rfl
    rw [this]
    have h2 : (if b then τ else 0) ≤ τ := by cases b <;> simp [h]
    have h3 : 0 ≤ (if b then τ else 0) := by cases b <;> simp [h]
    refine (ih (by linarith)).trans ?_
    rw [List.length_cons]
    push_cast
    linarith

/-- What was printed leads reader `b` along, up to `τ`. -/
def Trails (cc : List Word) (b : Machine) (τ : ℚ) (r : NormRes) (z : MRes) : Prop :=
  r.status = .done → z = (r.m, none) ∧ ∃ c' b', readLines b r.out = (b', none) ∧ Behind cc r.m c' ∧ Off τ c' b' ∧
    Sound r.m ∧ Sound c' ∧ Sound b'

theorem Follows.trails {cc : List Word} {c b : Machine} {τ : ℚ} (hτ : 0 ≤ τ) {r : NormRes} {z : MRes} (h : Follows cc c r z)
    (hcb : Off τ c b) (hc : Sound c) (hb : Sound b) : Trails cc b τ r z := by
  intro hd
  obtain ⟨h1, c', h2, h3, h4, h5⟩ := h hd
  have hl := lines_off hτ r.out hcb hc hb
  rw [h2] at hl
  exact ⟨h1, c', (readLines b r.out).1, Prod.ext rfl hl.2.symm, h3, hl.1, h4, h5, hb.lines _⟩

theorem Trails.andThen {cc : List Word} {b : Machine} {τ τ' : ℚ} {r : NormRes} {z : MRes} (h : Trails cc b τ r z)
    {f : Machine → NormRes} {F : Machine → MRes}
    (hf : ∀ c' b', z.2 = none → Behind cc z.1 c' → Off τ c' b' → Sound z.1 → Sound c' → Sound b' →
      Trails cc b' τ' (f z.1) (F z.1)) :
    Trails cc b τ' (r.andThen f) (Machine.andThen z F) := by
  obtain ⟨out, m, s⟩ := r
  cases s with
  | done =>
    obtain ⟨rfl, c', b', h1, h2, h3, h4, h5, h6⟩ := h rfl
    intro hd
    obtain ⟨k1, c'', b'', k2, k3⟩ := hf c' b' rfl h2 h3 h4 h5 h6 hd
    refine ⟨k1, c'', b'', ?_, k3⟩
    show readLines b (out ++ (f m).out) = _
    rw [readLines_append]
    simp only at h1
    rw [h1]
    exact k2
  | raised e => intro hd; cases hd
  | _ => intro hd; cases hd

theorem linearized_comment (g : GCode) (hp : ∀ w ∈ g.word :: g.params, PlainWord w) :
    CommentOK none (some (.brackets ("linearized arc: ".toList ++ NormOpts.reprText g))) := by
  have key : ∀ x ∈ "linearized arc: ".toList ++ NormOpts.reprText g, x ≠ '%' ∧ x ≠ '\n' ∧ x ≠ ';' ∧ x ≠ ')' := by
    intro x hx
    have h := expanded_comment g hp
    rcases List.mem_append.1 hx with hx | hx
    · have hl : ("linearized arc: ".toList).all (fun x => x != '%' && x != '\n' && x != ';' && x != ')') = true := by decide
      simpa [and_assoc] using List.all_eq_true.1 hl x hx
    · have hm : x ∈ "expanded: ".toList ++ NormOpts.reprText g := List.mem_append_right _ hx
      obtain ⟨h1, h2, h3, h4⟩ := h
      exact ⟨fun e => h1 (e ▸ hm), fun e => h2 (e ▸ hm), fun e => h3 (e ▸ hm), fun e => h4 (e ▸ hm)⟩
  exact ⟨fun h => (key _ h).1 rfl, fun h => (key _ h).2.1 rfl, fun h => (key _ h).2.2.1 rfl, fun h => (key _ h).2.2.2 rfl⟩

/-- Words that may be in the script's motion mode but not in the reader's. -/
def replaced (o : NormOpts) (x : ArcOpts) : List Word :=
  (if o.cannedExpand then o.cannedCodes else []) ++ (if x.on then [⟨'G', .num 2⟩, ⟨'G', .num 3⟩] else [])

theorem method_word {x : ArcOpts} {w : Word} {am : ArcMethod} (h : x.method w = .ok am) :
    w = ⟨'G', .num 2⟩ ∨ w = ⟨'G', .num 3⟩ := by
  unfold ArcOpts.method at h
  split_ifs at h with h1 h2
  · exact .inl h1
  · exact .inr h2

/-- A line with an arc. -/
theorem arcLine_trails (o : NormOpts) (hr : o.rmGcodes = []) (x : ArcOpts) (hon : x.on = true) (fl : Floats) {ε : ℚ}
    (hε0 : 0 ≤ ε) (hε : ε < 1 / 2000) (hfl : FloatsOK ε fl) {τ : ℚ} (hτ : 0 ≤ τ) {m c b : Machine}
    (h : Behind (replaced o x) m c) (hcb : Off τ c b) (hm : Sound m) (hc : Sound c) (hb : Sound b) (hax : m.axes = xyz)
    {t : List Char} {l : Line} (hl : Line.ofText t = .ok l) {gs : List GCode} (hgs : m.blockModalGcodes l.block = .ok gs)
    (hx : ∀ befores g afters, splitGcodes gs .arcMove true = (befores, [g], afters) → Linearizes o x m l befores g afters) :
    Trails (replaced o x) b (drift (ε + 1 / 2000) τ (lineArcs m t)) (o.arcLine x fl m gs l.comment) (m.processBlock l.block) := by
  obtain ⟨e1, e2, e3, e4, e5, e6⟩ := effective_ok hl hm.ok hm.named hgs
  have hso : gs.Pairwise (fun a b => a.cls.order ≤ b.cls.order) := by
    have := (execSort_stable gs).2.1
    rw [e5] at this
    exact this
  obtain ⟨c1, -⟩ := line_comment_ok hl
  unfold NormOpts.arcLine
  split
  · rename_i befores g afters hsp
    obtain ⟨ha, hsub⟩ := split_append hsp
    have hX := hx befores g afters hsp
    rw [e5] at ha
    have hla : drift (ε + 1 / 2000) τ (lineArcs m t) =
        (if (m.processAll befores).1.incremental = true then τ else 0) + (ε + 1 / 2000) := by
      unfold lineArcs
      rw [hl]
      simp only
      rw [hgs]
      simp only
      rw [hsp]
      rfl
    rw [hla]
    have hmb : ∀ x ∈ befores, x ∈ gs := fun x hx => by rw [ha]; simp [hx]
    have hmg : g ∈ gs := by rw [ha]; simp
    have hma : ∀ x ∈ afters, x ∈ gs := fun x hx => by rw [ha]; simp [hx]
    have sb : befores.Sublist gs := by rw [ha]; exact List.sublist_append_left _ _
    have sa : afters.Sublist gs := by
      rw [ha]; exact (List.sublist_cons_self g afters).trans (List.sublist_append_right _ _)
    have hval : m.processBlock l.block = Machine.andThen (m.processAll befores) (fun m =>
        Machine.andThen (m, none) (fun m => Machine.andThen (m.process g) (fun m =>
          Machine.andThen (m.processAll afters) (fun m => (m, none))))) := by
      rw [e6, ha, processAll_append]
      congr 1
      funext m'
      show m'.processAll (g :: afters) = Machine.andThen (m'.process g) _
      conv_lhs => unfold processAll
      congr 1
      funext m''
      rcases m''.processAll afters with ⟨_, _ | _⟩ <;> rfl
    rw [hval]
    have hη : 0 ≤ ε + 1 / 2000 := by linarith
    refine ((putProcess_follows o hr h hm hc befores (fun x hx => e1 x (hmb x hx)) (fun x hx => e2 x (hmb x hx))
      (e3.sublist sb) (fun x hx => e4 x (hmb x hx)) (execSort_of_pairwise (hso.sublist sb)) hX.plainB
      hX.conflictB).trails hτ hcb hc hb).andThen ?_
    intro c₁ b₁ _ h₁ o₁ hm₁ hc₁ hb₁
    refine ((comment_follows o hr h₁ hm₁ hc₁ _ (by
      split_ifs
      · trivial
      · exact linearized_comment g hX.plainG)).trails hτ o₁ hc₁ hb₁).andThen ?_
    intro c₂ b₂ _ h₂ o₂ hm₂ hc₂ hb₂
    simp only at h₂ hm₂ ⊢
    rw [← NormRes.andThen_assoc]
    have hax₁ : (m.processAll befores).1.axes = xyz := by
      have : (m.processAll befores).1.axes = m.axes :=
        congrArg Prod.fst (processAll_frozen (fun x hx => e2 x (hmb x hx)) hm.wf)
      rw [this]; exact hax
    have hτ' : 0 ≤ (if (m.processAll befores).1.incremental = true then τ else 0) + (ε + 1 / 2000) := by
      split_ifs <;> linarith
    have hstep : Trails (replaced o x) b₂ ((if (m.processAll befores).1.incremental = true then τ else 0) + (ε + 1 / 2000))
        ((o.putArc x fl (m.processAll befores).1 g).andThen (fun m => .ofM (m.processGcodes [g] [])))
        ((m.processAll befores).1.process g) := by
      intro hd
      have hw : g.word ∈ replaced o x := by
        unfold replaced
        rw [if_pos hon]
        unfold NormOpts.putArc at hd
        cases hp : (m.processAll befores).1.pos with
        | error e => rw [hp] at hd; cases hd
        | ok p =>
          rw [hp] at hd
          simp only at hd
          cases ham : x.method g.word with
          | error e => rw [ham] at hd; cases hd
          | ok am =>
            refine List.mem_append_right _ ?_
            rcases method_word ham with hw | hw <;> rw [hw] <;> simp
      exact arc_lands o hr x fl hε0 hε hfl hτ h₂ o₂ hm₂ hc₂ hb₂ hax₁ g (e2 g hmg) (e1 g hmg) hsub hw hX.small hd
    refine hstep.andThen ?_
    intro c₃ b₃ _ h₃ o₃ hm₃ hc₃ hb₃
    refine ((putProcess_follows o hr h₃ hm₃ hc₃ afters (fun x hx => e1 x (hma x hx)) (fun x hx => e2 x (hma x hx))
      (e3.sublist sa) (fun x hx => e4 x (hma x hx)) (execSort_of_pairwise (hso.sublist sa)) hX.plainA
      hX.conflictA).trails hτ' o₃ hc₃ hb₃).andThen ?_
    intro c₄ b₄ _ h₄ o₄ hm₄ hc₄ hb₄
    by_cases hcm : l.comment = none
    · rw [if_pos hcm]
      exact (Follows.nil h₄ hm₄ hc₄).trails hτ' o₄ hc₄ hb₄
    · rw [if_neg hcm]
      refine (comment_follows o hr h₄ hm₄ hc₄ _ ?_).trails hτ' o₄ hc₄ hb₄
      split_ifs with hrm
      · trivial
      · refine commentOK_none c1 ?_
        rcases hX.comment with hX | hX | hX
        · exact absurd hX hrm
        · exact .inl hX
        · exact .inr hX
  · intro hd; cases hd

theorem no_arcs {gs : List GCode} (h : gs.any (fun g => g.cls.isSub .arcMove) = false) :
    (splitGcodes gs .arcMove true).2.1 = [] := by
  obtain ⟨a, b, d, h1, h2, -, -, h5⟩ := C25_split gs .arcMove true
  rw [h1]
  rcases h5 with ⟨h5, -⟩ | ⟨x, hx, h5⟩
  · exact h5
  · exfalso
    subst hx
    have hmem : x ∈ gs := by
      exact (h2 rfl).1.mem_iff.1 (by simp)
    have := List.any_eq_false.1 h x hmem
    exact this h5

theorem lineArcs_none {m : Machine} {t : List Char} {l : Line} (hl : Line.ofText t = .ok l) {gs : List GCode}
    (hgs : m.blockModalGcodes l.block = .ok gs) (h : gs.any (fun g => g.cls.isSub .arcMove) = false) : lineArcs m t = [] := by
  have h1 := no_arcs h
  unfold lineArcs
  rw [hl]
  simp only
  rw [hgs]
  simp only
  generalize splitGcodes gs .arcMove true = z at h1
  obtain ⟨a, b, c⟩ := z
  simp only at h1
  subst h1
  rfl

theorem lineA_trails (o : NormOpts) (hr : o.rmGcodes = []) (hi : o.rmInvalid = false) (x : ArcOpts) (hon : x.on = true)
    (fl : Floats) {ε : ℚ} (hε0 : 0 ≤ ε) (hε : ε < 1 / 2000) (hfl : FloatsOK ε fl) (fuel : ℕ) {τ : ℚ} (hτ : 0 ≤ τ)
    {m c b : Machine} (h : Behind (replaced o x) m c) (hcb : Off τ c b) (hm : Sound m) (hc : Sound c) (hb : Sound b)
    (hax : m.axes = xyz) (hig : m.ignoreInvalid = false) (t : List Char) (ht : LineReplaces o x fuel m t) :
    Trails (replaced o x) b (drift (ε + 1 / 2000) τ (lineArcs m t)) (o.lineA x fl fuel m t) (m.processStr t) := by
  unfold NormOpts.lineA processStr
  cases hl : Line.ofText t with
  | error e => intro hd; cases hd
  | ok l =>
    simp only [hi, Bool.false_eq_true, if_false]
    cases hgs : m.blockModalGcodes l.block with
    | error e => intro hd; cases hd
    | ok gs =>
      have hx := ht l gs hl hgs
      simp only
      by_cases harc : (x.on && gs.any (fun g => g.cls.isSub .arcMove)) = true
      · rw [if_pos harc] at hx ⊢
        exact arcLine_trails o hr x hon fl hε0 hε hfl hτ h hcb hm hc hb hax hl hgs hx
      · rw [if_neg harc] at hx ⊢
        rw [hon, Bool.true_and, Bool.not_eq_true] at harc
        rw [lineArcs_none hl hgs harc]
        show Trails (replaced o x) b τ _ _
        by_cases hany : (o.cannedExpand && gs.any (fun g => decide (g.word ∈ o.cannedCodes))) = true
        · rw [if_pos hany] at hx ⊢
          have hce : o.cannedExpand = true := (Bool.and_eq_true_iff.1 hany).1
          refine (expandLine_follows o hr fuel ?_ h hm hc (by rw [hax]) hl hgs hx).trails hτ hcb hc hb
          intro w hw
          unfold replaced
          rw [if_pos hce]
          exact List.mem_append_left _ hw
        · rw [if_neg hany] at hx ⊢
          refine (plainLine_follows o hr h hm hc hig hl hgs ?_ hx).trails hτ hcb hc hb
          intro g hg hcm
          obtain ⟨e1, -⟩ := effective_ok hl hm.ok hm.named hgs
          have hcl := e1 g hg
          unfold replaced at hcm
          rw [if_pos hon] at hcm
          rcases List.mem_append.1 hcm with hcm | hcm
          · apply hany
            split_ifs at hcm with hce
            · rw [hce, Bool.true_and, List.any_eq_true]
              exact ⟨g, hg, by simpa using hcm⟩
            · cases hcm
          · have h2 : ∀ c, wordClass ⟨'G', .num 2⟩ = some c → c.isSub .arcMove = true := by decide +kernel
            have h3 : ∀ c, wordClass ⟨'G', .num 3⟩ = some c → c.isSub .arcMove = true := by decide +kernel
            have := List.any_eq_false.1 harc g hg
            simp only [List.mem_cons, List.not_mem_nil, or_false] at hcm
            rcases hcm with hcm | hcm <;> rw [hcm] at hcl
            · exact this (h2 _ hcl)
            · exact this (h3 _ hcl)

theorem loopA_trails (o : NormOpts) (hr : o.rmGcodes = []) (hi : o.rmInvalid = false) (x : ArcOpts) (hon : x.on = true)
    (fl : Floats) {ε : ℚ} (hε0 : 0 ≤ ε) (hε : ε < 1 / 2000) (hfl : FloatsOK ε fl) (fuel : ℕ) (ts : List (List Char)) :
    ∀ {τ : ℚ}, 0 ≤ τ → ∀ {m c b : Machine}, Behind (replaced o x) m c → Off τ c b → Sound m → Sound c → Sound b →
      m.axes = xyz → m.ignoreInvalid = false → LinesReplace o x fuel m ts →
      Trails (replaced o x) b (drift (ε + 1 / 2000) τ (arcsOf m ts)) (o.loopA x fl fuel m ts) (readLines m ts) := by
  induction ts with
  | nil => exact fun hτ m c b h hcb hm hc hb _ _ _ => (Follows.nil h hm hc).trails hτ hcb hc hb
  | cons t ts ih =>
    intro τ hτ m c b h hcb hm hc hb hax hig hts
    unfold NormOpts.loopA readLines arcsOf
    rw [drift_append]
    refine (lineA_trails o hr hi x hon fl hε0 hε hfl fuel hτ h hcb hm hc hb hax hig t hts.1).andThen ?_
    intro c' b' _ h' o' hm' hc' hb'
    have hfr := str_frozen hm.wf t
    exact ih (drift_nonneg (by linarith) _ hτ) h' o' hm' hc' hb'
      (by have : (m.processStr t).1.axes = m.axes := congrArg Prod.fst hfr
          rw [this]; exact hax)
      ((congrArg (fun x => x.2.1) hfr).trans hig) hts.2

theorem close_of_trail {cc : List Word} {τ : ℚ} {a c b : Machine} (h : Behind cc a c) (o : Off τ c b) (ha : Sound a) (hb : Sound b) :
    CloseButMotion τ a b := by
  refine ⟨⟨_, _, pos_ok a ha.wf (not_bad ha), pos_ok b hb.wf (not_bad hb), ?_⟩, h.near.state.trans o.state,
    h.near.axes.trans o.axes, ?_⟩
  · intro x
    have := o.dist x
    rw [← h.near.abs] at this
    rw [h.near.sysOff, o.sysOff, h.near.state, o.state]
    simp only [sub_sub_sub_cancel_right]
    exact this
  · intro k hk
    rw [← o.mode]
    exact h.near.mode k hk

/-- **C73**: if `pygcode-norm --arc_linearize` (with or without `--canned_expand`) finishes on lines
whose arcs and cycles can be replaced, and the computed coordinates are off by at most `ε`, less than
half a thousandth, then the lines themselves are accepted and lead to the script's final machine, and what
was printed, read back, is accepted and leads to the same offsets and modes (the motion mode aside)
and to a position that differs along each axis by at most `ε` and half a thousandth per arc. -/
theorem C73_count_partial (o : NormOpts) (hr : o.rmGcodes = []) (hi : o.rmInvalid = false) (x : ArcOpts) (hon : x.on = true)
    (fl : Floats) (ε : ℚ) (hε0 : 0 ≤ ε) (hε : ε < 1 / 2000) (hfl : FloatsOK ε fl) (fuel : ℕ) (m : Machine) (hm : Sound m)
    (hig : m.ignoreInvalid = false) (hax : m.axes = xyz) (ts : List (List Char)) (hts : LinesReplace o x fuel m ts)
    (hd : (o.loopA x fl fuel m ts).status = .done) :
    readLines m ts = ((o.loopA x fl fuel m ts).m, none) ∧
      ∃ b, readLines m (o.loopA x fl fuel m ts).out = (b, none) ∧
        CloseButMotion ((arcsOf m ts).length * (ε + 1 / 2000)) (o.loopA x fl fuel m ts).m b := by
  obtain ⟨h1, c, b, h2, h3, h4, h5, h6, h7⟩ := loopA_trails o hr hi x hon fl hε0 hε hfl fuel ts (le_refl 0)
    (.refl _ m) (Off.rfl' m) hm hm hm hax hig hts hd
  have hb := drift_count (η := ε + 1 / 2000) (by linarith) (arcsOf m ts) (le_refl 0)
  rw [zero_add] at hb
  exact ⟨h1, b, h2, close_of_trail h3 (h4.mono hb) h5 h7⟩

/-- **C73**: the differences do not add up if all arcs are in absolute mode. -/
theorem C73_absolute_partial (o : NormOpts) (hr : o.rmGcodes = []) (hi : o.rmInvalid = false) (x : ArcOpts) (hon : x.on = true)
    (fl : Floats) (ε : ℚ) (hε0 : 0 ≤ ε) (hε : ε < 1 / 2000) (hfl : FloatsOK ε fl) (fuel : ℕ) (m : Machine) (hm : Sound m)
    (hig : m.ignoreInvalid = false) (hax : m.axes = xyz) (ts : List (List Char)) (hts : LinesReplace o x fuel m ts)
    (habs : ∀ inc ∈ arcsOf m ts, inc = false) (hd : (o.loopA x fl fuel m ts).status = .done) :
    ∃ b, readLines m (o.loopA x fl fuel m ts).out = (b, none) ∧
      CloseButMotion (ε + 1 / 2000) (o.loopA x fl fuel m ts).m b := by
  obtain ⟨h1, c, b, h2, h3, h4, h5, h6, h7⟩ := loopA_trails o hr hi x hon fl hε0 hε hfl fuel ts (le_refl 0)
    (.refl _ m) (Off.rfl' m) hm hm hm hax hig hts hd
  have hb := drift_absolute (η := ε + 1 / 2000) (by linarith) (arcsOf m ts) habs (τ := 0) (by linarith)
  exact ⟨b, h2, close_of_trail h3 (h4.mono hb) h5 h7⟩

/-- Without `--arc_linearize` the script is the one of `C66` and `C67`. -/
theorem C73_off (o : NormOpts) (x : ArcOpts) (hoff : x.on = false) (fl : Floats) (fuel : ℕ) (md : Mode)
    (ts : List (List Char)) : o.runA x fl fuel md ts = o.run fuel md ts := by
  have hl : ∀ m t, o.lineA x fl fuel m t = o.line fuel m t := by
    intro m t
    unfold NormOpts.lineA NormOpts.line
    simp only [hoff, Bool.false_and, Bool.false_eq_true, if_false]
    rfl
  have : ∀ m ts, o.loopA x fl fuel m ts = o.loop fuel m ts := by
    intro m ts
    induction ts generalizing m with
    | nil => rfl
    | cons t ts ih =>
      unfold NormOpts.loopA NormOpts.loop
      rw [hl]
      congr 1
      funext m'
      exact ih m'
  unfold NormOpts.runA NormOpts.run
  rw [this]

end Pygcode
