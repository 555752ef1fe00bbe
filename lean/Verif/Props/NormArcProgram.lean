import Verif.Props.NormArcStep
import Verif.Props.PrintedMoves

/-!
# Arcs of whole programs, printed as lines (C116)
-/

namespace Pygcode
open Props Machine Spec Pl

/-! ## Specification -/

/-- A machine that starts as `m` and reads the texts `heads 0`, `heads 1`, … `heads N`, each with one line more at most than the one
before, keeps step with the helix of centre `c` and turn `A` from `s` to the height `top`: by that line it moves (as by G1) along a
segment that is always as high as the helix up to `hz`, and no farther than `hp` from it in the plane. -/
def KeepsStep (m : Machine) (heads : ℕ → List (List Char)) (N : ℕ) (am : ArcMethod) (s : V3) (top : ℝ) (c : ℂ) (A hz hp : ℝ) : Prop :=
  ∀ n < N, heads n <+: heads (n + 1) ∧ (heads (n + 1)).length ≤ (heads n).length + 1 ∧
    ∃ b₁ b₂ p₁ p₂ u₁ u₂, readLines m (heads n) = (b₁, none) ∧ b₁.pos = .ok p₁ ∧ p₁.vector = u₁ ∧
    readLines m (heads (n + 1)) = (b₂, none) ∧ b₂.pos = .ok p₂ ∧ p₂.vector = u₂ ∧ b₂.mode.motion.map GCode.cls = some .linearMove ∧
    ∀ t, 0 ≤ t → t ≤ 1 →
      |(onSegment (u₁, u₂) t).z - (s.z + (lineTime am N n + t * (lineTime am N (n + 1) - lineTime am N n)) * (top - s.z))| ≤ hz ∧
      ‖xy.coord (onSegment (u₁, u₂) t) - turned c (xy.coord s) A (lineTime am N n + t * (lineTime am N (n + 1) - lineTime am N n))‖ ≤ hp

/-- The helix that arc `g` asks for, from `s`, of a machine in the mode of `m`: its centre `c` and turn `A`. -/
def AsksFor (m : Machine) (g : GCode) (s : V3) (c : ℂ) (A : ℝ) : Prop :=
  turned c (xy.coord s) A 1 = arcEndOf m g s ∧
    (g.cls.isSub .arcMoveCW = true → 0 < A ∧ A < 2 * Real.pi) ∧
    (g.cls.isSub .arcMoveCW = false → -(2 * Real.pi) < A ∧ A < 0) ∧
    (∀ y, g.num? 'R' = some y → ‖xy.coord s - c‖ = |(y : ℝ)| ∧ (0 < y → |A| ≤ Real.pi) ∧ (y < 0 → Real.pi ≤ |A|)) ∧
    (g.num? 'R' = none → MeanCentre (xy.coord s) (arcEndOf m g s) (arcCentreOf m g s) c)

/-! ## Proof -/

theorem res_done {r : NormRes} {f : Machine → NormRes} (h : (r.andThen f).status = .done) :
    r.status = .done ∧ (f r.m).status = .done ∧ (r.andThen f).out = r.out ++ (f r.m).out := by
  obtain ⟨out, m, s⟩ := r
  cases s with
  | done => exact ⟨rfl, h, rfl⟩
  | _ => cases h

theorem loopA_append (o : NormOpts) (x : ArcOpts) (fl : Floats) (fuel : ℕ) (ts us : List (List Char)) : ∀ m : Machine,
    o.loopA x fl fuel m (ts ++ us) = (o.loopA x fl fuel m ts).andThen (fun m => o.loopA x fl fuel m us) := by
  induction ts with
  | nil => intro m; rfl
  | cons t ts ih =>
    intro m
    show (o.lineA x fl fuel m t).andThen (fun m => o.loopA x fl fuel m (ts ++ us)) = _
    rw [funext ih]
    exact (NormRes.andThen_assoc _ _ _).symm

theorem linesReplace_append {o : NormOpts} {x : ArcOpts} {fuel : ℕ} (ts us : List (List Char)) : ∀ {m m' : Machine},
    readLines m ts = (m', none) → LinesReplace o x fuel m (ts ++ us) → LinesReplace o x fuel m ts ∧ LinesReplace o x fuel m' us := by
  induction ts with
  | nil => intro m m' h h'; cases h; exact ⟨trivial, h'⟩
  | cons t ts ih =>
    intro m m' h h'
    unfold readLines at h
    rcases hz : m.processStr t with ⟨m₁, _ | e⟩
    · rw [hz] at h
      have h2 := h'.2
      rw [hz] at h2
      obtain ⟨k1, k2⟩ := ih h h2
      exact ⟨⟨h'.1, by rw [hz]; exact k1⟩, k2⟩
    · rw [hz] at h; cases h

theorem lines_frozen (ts : List (List Char)) : ∀ {m : Machine}, Sound m → frozen (readLines m ts).1 = frozen m := by
  induction ts with
  | nil => intro m _; rfl
  | cons t ts ih =>
    intro m hm
    unfold readLines
    have h1 := str_frozen hm.wf t
    have h2 := hm.str t
    rcases hz : m.processStr t with ⟨m₁, _ | e⟩
    · rw [hz] at h1 h2
      exact (ih h2).trans h1
    · rw [hz] at h1
      exact h1

/-- What has been printed when the lines of an arc begin, and what they are. -/
theorem arcLine_head (o : NormOpts) (hr : o.rmGcodes = []) (x : ArcOpts) (fl : Floats) {τ : ℚ} (hτ : 0 ≤ τ) {m c b : Machine}
    (h : Behind (replaced o x) m c) (hcb : Off τ c b) (hm : Sound m) (hc : Sound c) (hb : Sound b) (hax : m.axes = xyz)
    {t : List Char} {l : Line} (hl : Line.ofText t = .ok l) {gs : List GCode} (hgs : m.blockModalGcodes l.block = .ok gs)
    {befores afters : List GCode} {g : GCode} (hsp : splitGcodes gs .arcMove true = (befores, [g], afters))
    (hX : Linearizes o x m l befores g afters) (hd : (o.arcLine x fl m gs l.comment).status = .done) :
    ∃ m' head tail p am c' b', m.processAll befores = (m', none) ∧ m'.pos = .ok p ∧ x.method g.word = .ok am ∧
      (o.arcLine x fl m gs l.comment).out = head ++ arcText o x fl m' p am g (o.arcMoves x fl m' p am g).1.length ++ tail ∧
      readLines b head = (b', none) ∧ Behind (replaced o x) m' c' ∧ Off τ c' b' ∧ Sound m' ∧ Sound c' ∧ Sound b' ∧ m'.axes = xyz ∧
      linearizeArc g p (m'.mode.plane.map GCode.cls) (some am) m'.incremental (arcIncremental m') x.precision 3 =
        (arcVertices x m' p am g, .done) := by
  obtain ⟨e1, e2, e3, e4, e5, e6⟩ := effective_ok hl hm.ok hm.named hgs
  have hso : gs.Pairwise (fun a b => a.cls.order ≤ b.cls.order) := by
    have := (execSort_stable gs).2.1
    rw [e5] at this
    exact this
  obtain ⟨ha, hsub⟩ := split_append hsp
  rw [e5] at ha
  have hmb : ∀ x ∈ befores, x ∈ gs := fun x hx => by rw [ha]; simp [hx]
  have sb : befores.Sublist gs := by rw [ha]; exact List.sublist_append_left _ _
  unfold NormOpts.arcLine at hd ⊢
  rw [hsp] at hd ⊢
  simp only at hd ⊢
  rw [← NormRes.andThen_assoc] at hd ⊢
  obtain ⟨d1, d2, d3⟩ := res_done hd
  have hT : Trails (replaced o x) b τ ((o.putProcess m befores).andThen fun m =>
      NormRes.put m (o.write [] [] (some (.brackets ("linearized arc: ".toList ++ NormOpts.reprText g)))))
      (Machine.andThen (m.processAll befores) (fun m => (m, none))) := by
    refine ((putProcess_follows o hr h hm hc befores (fun x hx => e1 x (hmb x hx)) (fun x hx => e2 x (hmb x hx))
      (e3.sublist sb) (fun x hx => e4 x (hmb x hx)) (execSort_of_pairwise (hso.sublist sb)) hX.plainB
      hX.conflictB).trails hτ hcb hc hb).andThen ?_
    intro c₁ b₁ _ h₁ o₁ hm₁ hc₁ hb₁
    exact (comment_follows o hr h₁ hm₁ hc₁ _ (by
      split_ifs
      · trivial
      · exact linearized_comment g hX.plainG)).trails hτ o₁ hc₁ hb₁
  obtain ⟨k1, c', b', k2, k3, k4, k5, k6, k7⟩ := hT d1
  have hpa : m.processAll befores = (((o.putProcess m befores).andThen fun m =>
      NormRes.put m (o.write [] [] (some (.brackets ("linearized arc: ".toList ++ NormOpts.reprText g))))).m, none) := by
    rcases hz : m.processAll befores with ⟨m₁, _ | e⟩
    · rw [hz] at k1; exact k1
    · rw [hz] at k1; cases k1
  rw [d3]
  generalize ((o.putProcess m befores).andThen fun m =>
      NormRes.put m (o.write [] [] (some (.brackets ("linearized arc: ".toList ++ NormOpts.reprText g))))) = r at *
  obtain ⟨f1, f2, f3⟩ := res_done d2
  rw [f3]
  have hax' : r.m.axes = xyz := by
    have : (m.processAll befores).1.axes = m.axes := congrArg Prod.fst (processAll_frozen (fun x hx => e2 x (hmb x hx)) hm.wf)
    rw [hpa] at this
    rw [this]; exact hax
  have hput : ∃ p am, r.m.pos = .ok p ∧ x.method g.word = .ok am ∧ (o.putArc x fl r.m g).out =
      arcText o x fl r.m p am g (o.arcMoves x fl r.m p am g).1.length ∧ (o.arcMoves x fl r.m p am g).2 = .done := by
    unfold NormOpts.putArc at f1 ⊢
    cases hp : r.m.pos with
    | error e => rw [hp] at f1; cases f1
    | ok p =>
      rw [hp] at f1
      simp only at f1 ⊢
      cases ham : x.method g.word with
      | error e => rw [ham] at f1; cases f1
      | ok am =>
        rw [ham] at f1
        simp only at f1 ⊢
        rw [putAll_eq] at f1 ⊢
        refine ⟨p, am, rfl, rfl, ?_, f1⟩
        unfold arcText
        rw [List.take_length]
  obtain ⟨p, am, g1, g2, g3, g4⟩ := hput
  rw [g3]
  refine ⟨r.m, r.out, _, p, am, c', b', hpa, g1, g2, (List.append_assoc _ _ _).symm, k2, k3, k4, k5, k6, k7, hax', ?_⟩
  have hst := omitGen_done g4
  exact Prod.ext rfl hst

theorem arcText_motion (o : NormOpts) (hr : o.rmGcodes = []) (x : ArcOpts) (fl : Floats) {ε : ℚ} (hε : ε < 1 / 2000)
    (hfl : FloatsOK ε fl) (m : Machine) (p : Position) (am : ArcMethod) (g : GCode)
    (hL : linearizeArc g p (m.mode.plane.map GCode.cls) (some am) m.incremental (arcIncremental m) x.precision 3 =
      (arcVertices x m p am g, .done))
    (hsm : ∀ v ∈ arcVertices x m p am g, ∀ a ∈ xyz, |v.at a| ≤ 999) {b : Machine} (hb : Sound b) (n : ℕ)
    (hn : n < (o.arcMoves x fl m p am g).1.length) :
    (readLines b (arcText o x fl m p am g (n + 1))).1.mode.motion.map GCode.cls = some .linearMove := by
  have hmv : o.arcMoves x fl m p am g = o.omitGen ((fl m g (arcVertices x m p am g)).map linearTo, .done) := by
    have : o.arcMoves x fl m p am g = o.omitGen ((fl m g (arcVertices x m p am g)).map linearTo,
      (linearizeArc g p (m.mode.plane.map GCode.cls) (some am) m.incremental (arcIncremental m) x.precision 3).2) := rfl
    rw [this, hL]
  have hap := hfl m g _ hsm
  generalize hqs : fl m g (arcVertices x m p am g) = qs at hap hmv
  have hqsm : ∀ q ∈ qs, q.Small := fun q hq => by
    obtain ⟨v, hv, hqv⟩ := forall₂_left hap hq
    exact approx_small hε hqv (hsm v hv)
  have hlen : (o.arcMoves x fl m p am g).1.length = qs.length := by
    rw [hmv]
    unfold NormOpts.omitGen
    split_ifs
    · simp
    · simp only
      rw [omit_linear qs newNull (reader_null xyz)]
      simp only [Gen.andThen, List.append_nil]
      cases qs <;> simp
  have hpl : ∀ g ∈ (qs.map Q3.printed).map linearTo, PlainCode g ∧ g.cls.group = some 1 ∧ g.cls = .linearMove := by
    intro g hg
    simp only [List.mem_map, exists_exists_and_eq_and] at hg
    obtain ⟨q, hqm, rfl⟩ := hg
    exact ⟨linear_plain q (hqsm q hqm), linear_group.1, rfl⟩
  obtain ⟨b', h1, -, h3⟩ := moves_read_motion o hr hb _ (fun g hg => (hpl g hg).1) (fun g hg => (hpl g hg).2.1) (n + 1)
  have htext : arcText o x fl m p am g (n + 1) =
      ((o.omitGen ((qs.map Q3.printed).map linearTo, .done)).1.take (n + 1)).flatMap (fun g => o.writeOne [g] [] none none) := by
    unfold arcText
    rw [hmv]
    exact omitGen_take o qs (n + 1)
  rw [htext, h1]
  rw [← h3]
  have hol : n < ((qs.map Q3.printed).map linearTo).length := by rw [List.length_map, List.length_map, ← hlen]; exact hn
  generalize (qs.map Q3.printed).map linearTo = out at hpl hol
  rw [List.take_succ_eq_append_getElem hol]
  have hin : ∀ x ∈ out.take n ++ [out[n]], x ∈ out := by
    intro x hx
    rw [← List.take_succ_eq_append_getElem hol] at hx
    exact List.mem_of_mem_take hx
  have hcl := (hpl out[n] (List.getElem_mem hol)).2.2
  rw [last_motion (fun x hx => (hpl x (hin x hx)).1.gok) (fun x hx => (hpl x (hin x hx)).1.named) (.inr hcl) hb
    (stays_all (fun x hx => (hpl x (List.mem_of_mem_take hx)).1) hb), hcl]

theorem arcText_state (o : NormOpts) (hr : o.rmGcodes = []) (x : ArcOpts) (fl : Floats) {ε : ℚ} (hε : ε < 1 / 2000)
    (hfl : FloatsOK ε fl) (m : Machine) (p : Position) (am : ArcMethod) (g : GCode)
    (hL : linearizeArc g p (m.mode.plane.map GCode.cls) (some am) m.incremental (arcIncremental m) x.precision 3 =
      (arcVertices x m p am g, .done))
    (hsm : ∀ v ∈ arcVertices x m p am g, ∀ a ∈ xyz, |v.at a| ≤ 999) {b : Machine} (hb : Sound b) (hax : b.axes = xyz) (n : ℕ) :
    (readLines b (arcText o x fl m p am g n)).1.state = b.state := by
  have hmv : o.arcMoves x fl m p am g = o.omitGen ((fl m g (arcVertices x m p am g)).map linearTo, .done) := by
    have : o.arcMoves x fl m p am g = o.omitGen ((fl m g (arcVertices x m p am g)).map linearTo,
      (linearizeArc g p (m.mode.plane.map GCode.cls) (some am) m.incremental (arcIncremental m) x.precision 3).2) := rfl
    rw [this, hL]
  have hap := hfl m g _ hsm
  generalize hqs : fl m g (arcVertices x m p am g) = qs at hap hmv
  have hqsm : ∀ q ∈ qs, q.Small := fun q hq => by
    obtain ⟨v, hv, hqv⟩ := forall₂_left hap hq
    exact approx_small hε hqv (hsm v hv)
  have htext : arcText o x fl m p am g n =
      ((o.omitGen ((qs.map Q3.printed).map linearTo, .done)).1.take n).flatMap (fun g => o.writeOne [g] [] none none) := by
    unfold arcText
    rw [hmv]
    exact omitGen_take o qs n
  obtain ⟨b', h1, -, -, -, h2, -⟩ := printed_read o hr hb hax qs hqsm n
  rw [htext, h1]
  exact h2

/-- For any bound on how far off the reader is before the arc. -/
theorem program_step (o : NormOpts) (hr : o.rmGcodes = []) (hi : o.rmInvalid = false) (x : ArcOpts) (hon : x.on = true)
    (fl : Floats) (ε : ℚ) (hε0 : 0 ≤ ε) (hε : ε < 1 / 2000) (hfl : FloatsOK ε fl) (fuel : ℕ) (m : Machine) (hm : Sound m)
    (hig : m.ignoreInvalid = false) (hax : m.axes = xyz) (pre : List (List Char)) (t : List Char) (post : List (List Char))
    (hts : LinesReplace o x fuel m (pre ++ t :: post)) (hd : (o.loopA x fl fuel m (pre ++ t :: post)).status = .done)
    (m₁ : Machine) (h₁ : readLines m pre = (m₁, none)) (l : Line) (hl : Line.ofText t = .ok l) (gs : List GCode)
    (hgs : m₁.blockModalGcodes l.block = .ok gs) (befores afters : List GCode) (g : GCode)
    (hsp : splitGcodes gs .arcMove true = (befores, [g], afters)) (m₂ : Machine) (h₂ : m₁.processAll befores = (m₂, none))
    (hpl : m₂.mode.plane.map GCode.cls = none ∨ m₂.mode.plane.map GCode.cls = some .selectXYPlane)
    (p : Position) (hp : m₂.pos = .ok p) (s : V3) (hs : p.vector = s) (hneq : xy.coord s ≠ arcEndOf m₂ g s)
    (τ : ℚ) (hτ : drift (ε + 1 / 2000) 0 (arcsOf m pre) ≤ τ) :
    ∃ am heads N c A, x.method g.word = .ok am ∧ 0 < N ∧ heads N <+: (o.loopA x fl fuel m (pre ++ t :: post)).out ∧
      AsksFor m₂ g s c A ∧
      KeepsStep m heads N am s (arcTopOf m₂ g s) c A (τ + (ε + 1 / 2000)) (allowed am x.precision + 2 * (τ + (ε + 1 / 2000))) ∧
      ∀ n, (readLines m (heads n)).1.state = m₂.state := by
  have hη : 0 ≤ ε + 1 / 2000 := by linarith
  rw [loopA_append] at hd ⊢
  obtain ⟨d1, d2, d3⟩ := res_done hd
  obtain ⟨ht1, ht2⟩ := linesReplace_append pre (t :: post) h₁ hts
  obtain ⟨k1, c₁, b₁, k2, k3, k4, k5, k6, k7⟩ := loopA_trails o hr hi x hon fl hε0 hε hfl fuel pre (le_refl 0)
    (.refl _ m) (Off.rfl' m) hm hm hm hax hig ht1 d1
  rw [h₁] at k1
  obtain rfl : m₁ = (o.loopA x fl fuel m pre).m := congrArg Prod.fst k1
  rw [d3]
  generalize hrr : o.loopA x fl fuel m pre = r at *
  have hτ0 : 0 ≤ drift (ε + 1 / 2000) 0 (arcsOf m pre) := drift_nonneg hη _ (le_refl 0)
  have hτ1 : 0 ≤ τ := hτ0.trans hτ
  have hax₁ : r.m.axes = xyz ∧ r.m.ignoreInvalid = false := by
    have := lines_frozen pre hm
    rw [h₁] at this
    exact ⟨(congrArg Prod.fst this).trans hax, (congrArg (fun z => z.2.1) this).trans hig⟩
  obtain ⟨f1, f2, f3⟩ := res_done d2
  have hany : (x.on && gs.any (fun g => g.cls.isSub .arcMove)) = true := by
    obtain ⟨ha, hsub⟩ := split_append hsp
    rw [hon, Bool.true_and, List.any_eq_true]
    refine ⟨g, (execSort_stable gs).1.mem_iff.1 ?_, hsub⟩
    rw [ha]; simp
  have harc : o.lineA x fl fuel r.m t = o.arcLine x fl r.m gs l.comment := by
    unfold NormOpts.lineA
    rw [hl]
    simp only [hi, Bool.false_eq_true, if_false]
    rw [hgs]
    simp only
    rw [if_pos hany]
  have hX : Linearizes o x r.m l befores g afters := by
    have := ht2.1 l gs hl hgs
    rw [if_pos hany] at this
    exact this befores g afters hsp
  rw [harc] at f1
  obtain ⟨m₃, head, tail, p', am, c', b', q1, q2, q3, q4, q5, q6, q7, q8, q9, q10, q11, q12⟩ := arcLine_head o hr x fl hτ1 k3 (k4.mono hτ) k5 k6 k7
    hax₁.1 hl hgs hsp hX f1
  rw [h₂] at q1
  obtain rfl : m₂ = m₃ := congrArg Prod.fst q1
  rw [hp] at q2
  obtain rfl : p = p' := Except.ok.inj q2
  have hsm := hX.small p am (by rw [h₂]; exact hp)
  rw [h₂] at hsm
  obtain ⟨c, A, s1, s2, s3, s4, s5, s0, s6⟩ := printed_step o hr x fl ε hε0 hε hfl hτ1 m₂ c' b' q8 q10 q6.near q7 q11 g p hp s hs am hpl hneq q12 hsm
  refine ⟨am, fun n => r.out ++ head ++ arcText o x fl m₂ p am g n, (o.arcMoves x fl m₂ p am g).1.length, c, A, q3, ?_, ?_,
    ⟨s1, s2, s3, s4, s5⟩, ?_, ?_⟩
  · exact s0
  · show _ <+: r.out ++ ((o.lineA x fl fuel r.m t).andThen _).out
    rw [f3, harc, q4]
    simp only [List.append_assoc]
    exact (List.prefix_append_right_inj _).2 ((List.prefix_append_right_inj _).2 (List.prefix_append _ _))
  · intro n hn
    refine ⟨(List.prefix_append_right_inj _).2 (flat_prefix o _ n), ?_, ?_⟩
    · have := one_line o (o.arcMoves x fl m₂ p am g).1 n
      unfold arcText
      simp only [List.length_append]
      omega
    obtain ⟨b₁', b₂', p₁, p₂, u₁, u₂, j1, j2, j3, j4, j5, j6, j7⟩ := s6 n hn
    have hrd : ∀ n, readLines m (r.out ++ head ++ arcText o x fl m₂ p am g n) = readLines b' (arcText o x fl m₂ p am g n) := by
      intro n
      rw [readLines_append, readLines_append, k2]
      show (Machine.andThen (readLines b₁ head) _) = _
      rw [q5]
      rfl
    refine ⟨b₁', b₂', p₁, p₂, u₁, u₂, by rw [hrd]; exact j1, j2, j3, by rw [hrd]; exact j4, j5, j6, ?_, j7⟩
    have := arcText_motion o hr x fl hε hfl m₂ p am g q12 hsm q10 n hn
    rw [j4] at this
    exact this
  · intro n
    rw [readLines_append, readLines_append, k2]
    show (Machine.andThen (readLines b₁ head) _).1.state = _
    rw [q5]
    exact (arcText_state o hr x fl hε hfl m₂ p am g q12 hsm q10 ((q7.axes.symm.trans q6.near.axes.symm).trans q11) n).trans
      (q7.state.symm.trans q6.near.state.symm)

/-- **C116**: a program (lines `pre`, `t` and `post`) that `pygcode-norm --arc_linearize` finishes on, and an arc `g` of line `t`
in the XY plane, which the input reaches at `s`.  A machine that reads the printed lines keeps step, at the lines printed for
`g`, with the helix that `g` asks for: as high as the helix up to the error of a coordinate (`ε` and half a thousandth) for this
arc and for each arc before it, and aside of it by no more than the method allows and twice that error. -/
theorem C116_program (o : NormOpts) (hr : o.rmGcodes = []) (hi : o.rmInvalid = false) (x : ArcOpts) (hon : x.on = true)
    (fl : Floats) (ε : ℚ) (hε0 : 0 ≤ ε) (hε : ε < 1 / 2000) (hfl : FloatsOK ε fl) (fuel : ℕ) (m : Machine) (hm : Sound m)
    (hig : m.ignoreInvalid = false) (hax : m.axes = xyz) (pre : List (List Char)) (t : List Char) (post : List (List Char))
    (hts : LinesReplace o x fuel m (pre ++ t :: post)) (hd : (o.loopA x fl fuel m (pre ++ t :: post)).status = .done)
    (m₁ : Machine) (h₁ : readLines m pre = (m₁, none)) (l : Line) (hl : Line.ofText t = .ok l) (gs : List GCode)
    (hgs : m₁.blockModalGcodes l.block = .ok gs) (befores afters : List GCode) (g : GCode)
    (hsp : splitGcodes gs .arcMove true = (befores, [g], afters)) (m₂ : Machine) (h₂ : m₁.processAll befores = (m₂, none))
    (hpl : m₂.mode.plane.map GCode.cls = none ∨ m₂.mode.plane.map GCode.cls = some .selectXYPlane)
    (p : Position) (hp : m₂.pos = .ok p) (s : V3) (hs : p.vector = s) (hneq : xy.coord s ≠ arcEndOf m₂ g s) :
    ∃ am heads N c A, x.method g.word = .ok am ∧ 0 < N ∧ heads N <+: (o.loopA x fl fuel m (pre ++ t :: post)).out ∧
      AsksFor m₂ g s c A ∧
      KeepsStep m heads N am s (arcTopOf m₂ g s) c A (((arcsOf m pre).length + 1) * (ε + 1 / 2000))
        (allowed am x.precision + 2 * (((arcsOf m pre).length + 1) * (ε + 1 / 2000))) := by
  have hdr := drift_count (η := ε + 1 / 2000) (by linarith) (arcsOf m pre) (le_refl 0)
  rw [zero_add] at hdr
  obtain ⟨am, heads, N, c, A, k1, k2, k3, k4, k5, -⟩ := program_step o hr hi x hon fl ε hε0 hε hfl fuel m hm hig hax pre t post hts
    hd m₁ h₁ l hl gs hgs befores afters g hsp m₂ h₂ hpl p hp s hs hneq _ hdr
  refine ⟨am, heads, N, c, A, k1, k2, k3, k4, ?_⟩
  have e : (((((arcsOf m pre).length : ℚ) * (ε + 1 / 2000) : ℚ) : ℝ) + ((ε : ℝ) + 1 / 2000)) =
      (((arcsOf m pre).length : ℝ) + 1) * ((ε : ℝ) + 1 / 2000) := by
    push_cast; ring
  rw [e] at k5
  exact k5

/-- **C116**: the errors do not add up if all arcs before it are in absolute mode. -/
theorem C116_absolute (o : NormOpts) (hr : o.rmGcodes = []) (hi : o.rmInvalid = false) (x : ArcOpts) (hon : x.on = true)
    (fl : Floats) (ε : ℚ) (hε0 : 0 ≤ ε) (hε : ε < 1 / 2000) (hfl : FloatsOK ε fl) (fuel : ℕ) (m : Machine) (hm : Sound m)
    (hig : m.ignoreInvalid = false) (hax : m.axes = xyz) (pre : List (List Char)) (t : List Char) (post : List (List Char))
    (hts : LinesReplace o x fuel m (pre ++ t :: post)) (hd : (o.loopA x fl fuel m (pre ++ t :: post)).status = .done)
    (m₁ : Machine) (h₁ : readLines m pre = (m₁, none)) (l : Line) (hl : Line.ofText t = .ok l) (gs : List GCode)
    (hgs : m₁.blockModalGcodes l.block = .ok gs) (befores afters : List GCode) (g : GCode)
    (hsp : splitGcodes gs .arcMove true = (befores, [g], afters)) (m₂ : Machine) (h₂ : m₁.processAll befores = (m₂, none))
    (hpl : m₂.mode.plane.map GCode.cls = none ∨ m₂.mode.plane.map GCode.cls = some .selectXYPlane)
    (p : Position) (hp : m₂.pos = .ok p) (s : V3) (hs : p.vector = s) (hneq : xy.coord s ≠ arcEndOf m₂ g s)
    (habs : ∀ inc ∈ arcsOf m pre, inc = false) :
    ∃ am heads N c A, x.method g.word = .ok am ∧ 0 < N ∧ heads N <+: (o.loopA x fl fuel m (pre ++ t :: post)).out ∧
      AsksFor m₂ g s c A ∧
      KeepsStep m heads N am s (arcTopOf m₂ g s) c A (2 * (ε + 1 / 2000)) (allowed am x.precision + 4 * (ε + 1 / 2000)) := by
  have hdr := drift_absolute (η := ε + 1 / 2000) (by linarith) (arcsOf m pre) habs (τ := 0) (by linarith)
  obtain ⟨am, heads, N, c, A, k1, k2, k3, k4, k5, -⟩ := program_step o hr hi x hon fl ε hε0 hε hfl fuel m hm hig hax pre t post hts
    hd m₁ h₁ l hl gs hgs befores afters g hsp m₂ h₂ hpl p hp s hs hneq _ hdr
  refine ⟨am, heads, N, c, A, k1, k2, k3, k4, ?_⟩
  have e : (((ε + 1 / 2000 : ℚ) : ℝ) + ((ε : ℝ) + 1 / 2000)) = 2 * ((ε : ℝ) + 1 / 2000) := by push_cast; ring
  rw [e, show 2 * (2 * ((ε : ℝ) + 1 / 2000)) = 4 * ((ε : ℝ) + 1 / 2000) by ring] at k5
  exact k5

/-! ## Instance -/

/-- `G3 X5 Y2 Z-1 J1`, after two arcs, on a line with a feed rate. -/
def dipArc : GCode := ⟨.arcMoveCCW, ⟨'G', .num 3⟩, [⟨'X', .num 5⟩, ⟨'Y', .num 2⟩, ⟨'J', .num 1⟩, ⟨'Z', .num (-1)⟩], false⟩

/-- What the theorems ask of the fifth line of `arcSample`. -/
def dipCheck (m : Machine) (t : List Char) : Bool :=
  match Line.ofText t with
  | .error _ => false
  | .ok l =>
    match m.blockModalGcodes l.block with
    | .error _ => false
    | .ok gs =>
      match splitGcodes gs .arcMove true with
      | (befores, [g], _) =>
        decide (g = dipArc) && (m.processAll befores).2.isNone && !(m.processAll befores).1.incremental &&
          decide ((m.processAll befores).1.mode.plane.map GCode.cls = some .selectXYPlane) &&
          decide ((m.processAll befores).1.pos.map (fun p => (p.val .X, p.val .Y, p.val .Z)) = .ok (5, 0, 0))
      | _ => false

theorem dip_spec {m : Machine} {t : List Char} (h : dipCheck m t = true) : ∃ l gs befores afters m₂ p, Line.ofText t = .ok l ∧
    m.blockModalGcodes l.block = .ok gs ∧ splitGcodes gs .arcMove true = (befores, [dipArc], afters) ∧
    m.processAll befores = (m₂, none) ∧ m₂.incremental = false ∧ m₂.mode.plane.map GCode.cls = some .selectXYPlane ∧
    m₂.pos = .ok p ∧ p.vector = ⟨5, 0, 0⟩ := by
  unfold dipCheck at h
  cases hl : Line.ofText t with
  | error e => rw [hl] at h; cases h
  | ok l =>
    rw [hl] at h
    simp only at h
    cases hgs : m.blockModalGcodes l.block with
    | error e => rw [hgs] at h; cases h
    | ok gs =>
      rw [hgs] at h
      simp only at h
      rcases hsp : splitGcodes gs .arcMove true with ⟨befores, mid, afters⟩
      rw [hsp] at h
      rcases mid with - | ⟨g, - | ⟨g', mid⟩⟩
      · cases h
      · simp only [Bool.and_eq_true, decide_eq_true_eq, Option.isNone_iff_eq_none, Bool.not_eq_true'] at h
        obtain ⟨⟨⟨⟨rfl, h2⟩, h3⟩, h4⟩, h5⟩ := h
        cases hp : (m.processAll befores).1.pos with
        | error e => rw [hp] at h5; cases h5
        | ok p =>
          rw [hp] at h5
          have h6 : (p.val .X, p.val .Y, p.val .Z) = (5, 0, 0) := Except.ok.inj h5
          simp only [Prod.mk.injEq] at h6
          refine ⟨l, gs, befores, afters, (m.processAll befores).1, p, rfl, hgs, hsp, Prod.ext rfl h2, h3, h4, hp, ?_⟩
          unfold Position.vector
          rw [h6.1, h6.2.1, h6.2.2]
          norm_num
      · cases h

/-- The third arc of `arcSample`, from (5, 0, 0) to (5, 2, -1), turns to the left: whatever the methods, the reader of the
printed lines keeps within 18/10000 of the height of the helix from 0 to -1, or 12/10000, as all arcs are absolute. -/
example : ∃ heads N am c A, 0 < N ∧ heads N <+: (expandOpts.loopA arcSampleOpts floorFloats 20 newNull arcSample).out ∧
    turned c 5 A 1 = 5 + 2 * Complex.I ∧ -(2 * Real.pi) < A ∧ A < 0 ∧
    KeepsStep newNull heads N am ⟨5, 0, 0⟩ (-1) c A (3 * (6 / 10000)) (allowed am (1 / 100) + 2 * (3 * (6 / 10000))) ∧
    ∃ heads N am c A, 0 < N ∧ heads N <+: (expandOpts.loopA arcSampleOpts floorFloats 20 newNull arcSample).out ∧
      turned c 5 A 1 = 5 + 2 * Complex.I ∧
      KeepsStep newNull heads N am ⟨5, 0, 0⟩ (-1) c A (2 * (6 / 10000)) (allowed am (1 / 100) + 4 * (6 / 10000)) := by
  obtain ⟨h1, h2⟩ := programB_sound (o := expandOpts) rfl rfl (x := arcSampleOpts) rfl (by norm_num [arcSampleOpts])
    (by norm_num [arcSampleOpts]) (by norm_num) (by norm_num) floorFloats_ok (fuel := 20) arcSample (m := newNull)
    (reader_null xyz).sound rfl rfl (by decide +kernel)
  have hsplit : arcSample = arcSample.take 4 ++ "F100 G3 X5 Y2 J1 Z-1".toList :: arcSample.drop 5 := by decide +kernel
  have hck : (readLines newNull (arcSample.take 4)).2 = none ∧ (arcsOf newNull (arcSample.take 4) = [false, false]) ∧
      dipCheck (readLines newNull (arcSample.take 4)).1 "F100 G3 X5 Y2 J1 Z-1".toList = true := by decide +kernel
  obtain ⟨l, gs, befores, afters, m₂, p, k1, k2, k3, k4, k5, k6, k7, k8⟩ := dip_spec hck.2.2
  have hm₁ : Sound (readLines newNull (arcSample.take 4)).1 := (reader_null xyz).sound.lines _
  have hm₂ : Sound m₂ := by
    obtain ⟨e1, e2, -⟩ := effective_ok k1 hm₁.ok hm₁.named k2
    have hmb : ∀ x ∈ befores, x ∈ gs := fun x hx => (execSort_stable gs).1.mem_iff.1 (by rw [(split_append k3).1]; simp [hx])
    have := Sound.all (fun x hx => e2 x (hmb x hx)) (fun x hx => e1 x (hmb x hx)) hm₁
    rw [k4] at this
    exact this
  have hE : dipArc.arcEnd ⟨5, 0, 0⟩ false = ⟨5, 2, -1⟩ := by
    simp [dipArc, GCode.arcEnd, GCode.num?, GCode.param, Word.num]
  have e1 : arcEndOf m₂ dipArc ⟨5, 0, 0⟩ = 5 + 2 * Complex.I := by
    rw [← arcEndOf_eq hm₂, k5, hE]; apply Complex.ext <;> simp [Pl.coord]
  have e2 : arcTopOf m₂ dipArc ⟨5, 0, 0⟩ = -1 := by
    rw [← arcTopOf_eq hm₂, k5, hE]
  have e3 : xy.coord ⟨5, 0, 0⟩ = 5 := by apply Complex.ext <;> simp [Pl.coord]
  have e4 : xy.coord ⟨5, 0, 0⟩ ≠ arcEndOf m₂ dipArc ⟨5, 0, 0⟩ := by
    rw [e1, e3]; intro h; have := congrArg Complex.im h; simp at this
  have h1' := h1
  have h2' := h2
  rw [hsplit] at h1' h2'
  obtain ⟨am, heads, N, c, A, r1, r2, r3, r4, r5⟩ := C116_program expandOpts rfl rfl arcSampleOpts rfl floorFloats (1 / 10000)
    (by norm_num) (by norm_num) floorFloats_ok 20 newNull (reader_null xyz).sound rfl rfl _ _ _ h1' h2' _ (Prod.ext rfl hck.1)
    l k1 gs k2 befores afters dipArc k3 m₂ k4 (.inr k6) p k7 _ k8 e4
  obtain ⟨am', heads', N', c', A', t1, t2, t3, t4, t5⟩ := C116_absolute expandOpts rfl rfl arcSampleOpts rfl floorFloats (1 / 10000)
    (by norm_num) (by norm_num) floorFloats_ok 20 newNull (reader_null xyz).sound rfl rfl _ _ _ h1' h2' _ (Prod.ext rfl hck.1)
    l k1 gs k2 befores afters dipArc k3 m₂ k4 (.inr k6) p k7 _ k8 e4 (by rw [hck.2.1]; decide)
  rw [← hsplit] at r3 t3
  rw [e2] at r5 t5
  rw [hck.2.1] at r5
  have r6 := r4.1
  have t6 := t4.1
  rw [e1, e3] at r6 t6
  refine ⟨heads, N, am, c, A, r2, r3, r6, (r4.2.2.1 (by decide)).1, (r4.2.2.1 (by decide)).2, ?_, heads', N', am', c', A', t2, t3, t6, ?_⟩
  · convert r5 using 1 <;> norm_num [arcSampleOpts]
  · convert t5 using 1 <;> norm_num [arcSampleOpts]

end Pygcode
