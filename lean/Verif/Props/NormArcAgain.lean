import Verif.Props.NormAgain
import Verif.Props.NormArcSample

/-!
# C110: `pygcode-norm --arc_linearize` leaves no arc, and on its own output
-/

namespace Pygcode
open Props Machine Spec

/-! ## Specification -/

/-- The words that are to be replaced: those of arcs, and with `--canned_expand` the listed ones. -/
def toReplace (o : NormOpts) : List Word :=
  (if o.cannedExpand then o.cannedCodes else []) ++ [⟨'G', .num 2⟩, ⟨'G', .num 3⟩]

/-- The line is read, and none of its gcodes is an arc. -/
def NoArc (t : List Char) : Prop :=
  ∃ l, Line.ofText t = .ok l ∧ ∀ g ∈ l.block.gcodes, g.cls.isSub .arcMove = false

/-! ## Arcs and their words -/

theorem arc_word_table (c : Cls) (h : c.isSub .arcMove = true) (w : Word) (hw : wordClass w = some c) :
    w = ⟨'G', .num 2⟩ ∨ w = ⟨'G', .num 3⟩ := by
  have ht := Cls.forall_of_all (p := fun c => !(c.isSub .arcMove) || (decide (c.wordKey = none) || decide (c.wordKey = some ('G', 2)) ||
    decide (c.wordKey = some ('G', 3))) && c.matcher.isNone) (by decide +kernel) c
  rcases ((C15_lookup _ w c).1 hw).2 with ⟨l, q, hk, rfl⟩ | ⟨-, f, hf, -⟩
  · rw [h, hk] at ht
    simp at ht
    rcases ht.1 with ⟨rfl, rfl⟩ | ⟨rfl, rfl⟩ <;> simp
  · rw [h, hf] at ht
    simp at ht

theorem word_arc {w : Word} {c : Cls} (h : w = ⟨'G', .num 2⟩ ∨ w = ⟨'G', .num 3⟩) (hw : wordClass w = some c) :
    c.isSub .arcMove = true := by
  have h2 : ∀ c, wordClass ⟨'G', .num 2⟩ = some c → c.isSub .arcMove = true := by decide +kernel
  have h3 : ∀ c, wordClass ⟨'G', .num 3⟩ = some c → c.isSub .arcMove = true := by decide +kernel
  rcases h with rfl | rfl
  · exact h2 c hw
  · exact h3 c hw

theorem notMoves_replace (o : NormOpts) (hcc : o.cannedExpand = true → OnlyCycles o.cannedCodes) : NotMoves (toReplace o) := by
  intro c hn hm hw
  rcases List.mem_append.1 hw with hw | hw
  · split_ifs at hw with hce
    · exact (hcc hce).notMoves c hn hm hw
    · cases hw
  · simp only [List.mem_cons, List.not_mem_nil, or_false] at hw
    have h1 := word_arc hw hn
    have h2 : Cls.rapidMove.isSub .arcMove = false ∧ Cls.linearMove.isSub .arcMove = false := by decide +kernel
    rcases hm with h | h <;> rw [h] at h1
    · rw [h2.1] at h1; cases h1
    · rw [h2.2] at h1; cases h1

theorem replaced_on {o : NormOpts} {x : ArcOpts} (hon : x.on = true) : replaced o x = toReplace o := by
  unfold replaced toReplace
  rw [if_pos hon]

theorem unlisted_noArc {o : NormOpts} {t : List Char} (h : Unlisted (toReplace o) t) : NoArc t := by
  obtain ⟨l, h1, h2⟩ := h
  refine ⟨l, h1, fun g hg => ?_⟩
  by_contra harc
  rw [Bool.not_eq_false] at harc
  refine h2 g hg (List.mem_append_right _ ?_)
  rcases arc_word_table _ harc _ ((line_block_ok h1).cls g hg) with h | h <;> rw [h] <;> simp

/-! ## Lines printed for an arc -/

theorem linear_notReplaced (o : NormOpts) (hcc : o.cannedExpand = true → OnlyCycles o.cannedCodes) (v : Q3) :
    (linearTo v).word ∉ toReplace o := notMoves_replace o hcc _ (linear_named v) (.inr rfl)

theorem arc_written (o : NormOpts) (x : ArcOpts) (fl : Floats) {ε : ℚ}
    (hε : ε < 1 / 2000) (hfl : FloatsOK ε fl) {m : Machine} (g : GCode)
    (hsm : ∀ p am, m.pos = .ok p → ∀ v ∈ arcVertices x m p am g, ∀ a ∈ xyz, |v.at a| ≤ 999)
    (hd : (o.putArc x fl m g).status = .done) :
    ∀ s ∈ (o.putArc x fl m g).out, ∃ v b, Q3.Small v ∧ (b = true → o.full = false) ∧
      s ∈ o.writeOne [{ linearTo v.printed with ws := b }] [] none none := by
  unfold NormOpts.putArc at hd ⊢
  cases hp : m.pos with
  | error e => rw [hp] at hd; cases hd
  | ok p =>
    rw [hp] at hd
    simp only at hd ⊢
    cases ham : x.method g.word with
    | error e => rw [ham] at hd; cases hd
    | ok am =>
      rw [ham] at hd
      simp only at hd ⊢
      rw [putAll_eq] at hd ⊢
      have hmv : o.arcMoves x fl m p am g = o.omitGen ((fl m g (arcVertices x m p am g)).map linearTo,
        (linearizeArc g p (m.mode.plane.map GCode.cls) (some am) m.incremental (arcIncremental m) x.precision 3).2) := rfl
      rw [hmv] at hd ⊢
      simp only at hd
      have hst := omitGen_done hd
      rw [hst]
      have hsmall := hsm p am hp
      have hap := hfl m g _ hsmall
      generalize hqs : fl m g (arcVertices x m p am g) = qs at hap
      have hqsm : ∀ q ∈ qs, q.Small := by
        intro q hq
        obtain ⟨v, hv, hqv⟩ := forall₂_left hap hq
        exact approx_small hε hqv (hsmall v hv)
      simp only
      rw [(omitGen_linear o qs).1]
      intro s hs
      obtain ⟨c, hc, hs⟩ := List.mem_flatMap.1 hs
      have key : ∃ v ∈ qs, ∃ b, (b = true → o.full = false) ∧ c = lin b v.printed := by
        unfold NormOpts.omitGen at hc
        by_cases hf : o.full = true
        · rw [if_pos hf] at hc
          simp only [List.mem_map, exists_exists_and_eq_and] at hc
          obtain ⟨q, hq, rfl⟩ := hc
          exact ⟨q, hq, false, by simp, rfl⟩
        · rw [if_neg hf] at hc
          simp only at hc
          rw [omit_linear (qs.map Q3.printed) newNull (reader_null xyz)] at hc
          simp only [Gen.andThen, List.append_nil] at hc
          cases qs with
          | nil => cases hc
          | cons q qs =>
            simp only [List.map_cons] at hc
            rcases List.mem_cons.1 hc with rfl | hc
            · exact ⟨q, by simp, _, fun _ => by simpa using hf, rfl⟩
            · simp only [List.mem_map, exists_exists_and_eq_and] at hc
              obtain ⟨q', hq, rfl⟩ := hc
              exact ⟨q', by simp [hq], true, fun _ => by simpa using hf, rfl⟩
      obtain ⟨v, hv, b, hb, rfl⟩ := key
      exact ⟨v, b, hqsm v hv, hb, hs⟩

/-- What is known about a printed line. -/
def Settled (o : NormOpts) (s : List Char) : Prop := Unlisted (toReplace o) s ∧ ∃ t, Again o s t

theorem arc_settled (o : NormOpts) (hr : o.rmGcodes = []) (hcc : o.cannedExpand = true → OnlyCycles o.cannedCodes)
    (x : ArcOpts) (fl : Floats) {ε : ℚ}
    (hε : ε < 1 / 2000) (hfl : FloatsOK ε fl) {m : Machine} (g : GCode)
    (hsm : ∀ p am, m.pos = .ok p → ∀ v ∈ arcVertices x m p am g, ∀ a ∈ xyz, |v.at a| ≤ 999)
    (hd : (o.putArc x fl m g).status = .done) : ∀ s ∈ (o.putArc x fl m g).out, Settled o s := by
  intro s hs
  obtain ⟨v, b, hv, hb, hs⟩ := arc_written o x fl hε hfl g hsm hd s hs
  exact ⟨written_unlisted o hr _ _ (linear_plain v hv) linear_group.1 (linear_notReplaced o hcc _) b s hs,
    written_again o hr _ (linear_plain v hv) linear_group.1 (by simp [linearTo]) b hb s hs⟩

theorem putArc_m (o : NormOpts) (x : ArcOpts) (fl : Floats) (m : Machine) (g : GCode) : (o.putArc x fl m g).m = m := by
  unfold NormOpts.putArc
  cases m.pos with
  | error e => rfl
  | ok p =>
    simp only
    cases x.method g.word with
    | error e => rfl
    | ok am => simp only; rw [putAll_eq]

theorem arcLine_settled (o : NormOpts) (hr : o.rmGcodes = []) (hcc : o.cannedExpand = true → OnlyCycles o.cannedCodes)
    (x : ArcOpts) (fl : Floats) {ε : ℚ} (hε : ε < 1 / 2000) (hfl : FloatsOK ε fl)
    {m : Machine} (hm : Sound m) {t : List Char} {l : Line}
    (hl : Line.ofText t = .ok l) {gs : List GCode} (hgs : m.blockModalGcodes l.block = .ok gs)
    (hx : ∀ befores g afters, splitGcodes gs .arcMove true = (befores, [g], afters) → Linearizes o x m l befores g afters)
    (hone : gs.countP (fun g => decide (g.word ∈ toReplace o)) ≤ 1)
    (hd : (o.arcLine x fl m gs l.comment).status = .done) :
    ∀ s ∈ (o.arcLine x fl m gs l.comment).out, Settled o s := by
  obtain ⟨e1, e2, e3, e4, e5, e6⟩ := effective_ok hl hm.ok hm.named hgs
  have hso : gs.Pairwise (fun a b => a.cls.order ≤ b.cls.order) := by
    have := (execSort_stable gs).2.1
    rw [e5] at this
    exact this
  obtain ⟨c1, -⟩ := line_comment_ok hl
  unfold NormOpts.arcLine at hd ⊢
  split at hd
  swap
  · cases hd
  rename_i befores g afters hsp
  obtain ⟨ha, hsub⟩ := split_append hsp
  have hX := hx befores g afters hsp
  rw [e5] at ha
  have hmb : ∀ x ∈ befores, x ∈ gs := fun x hx => by rw [ha]; simp [hx]
  have hmg : g ∈ gs := by rw [ha]; simp
  have hma : ∀ x ∈ afters, x ∈ gs := fun x hx => by rw [ha]; simp [hx]
  have sb : befores.Sublist gs := by rw [ha]; exact List.sublist_append_left _ _
  have sa : afters.Sublist gs := by
    rw [ha]; exact (List.sublist_cons_self g afters).trans (List.sublist_append_right _ _)
  have hgw : g.word ∈ toReplace o := by
    refine List.mem_append_right _ ?_
    rcases arc_word_table _ hsub _ (e1 g hmg) with h | h <;> rw [h] <;> simp
  have hcount : befores.countP (fun g => decide (g.word ∈ toReplace o)) = 0 ∧
      afters.countP (fun g => decide (g.word ∈ toReplace o)) = 0 := by
    rw [ha, List.countP_append, List.countP_cons_of_pos (by simpa using hgw)] at hone
    omega
  have hub : ∀ x ∈ befores, x.word ∉ toReplace o := fun x hx => by
    simpa using List.countP_eq_zero.1 hcount.1 x hx
  have hua : ∀ x ∈ afters, x.word ∉ toReplace o := fun x hx => by
    simpa using List.countP_eq_zero.1 hcount.2 x hx
  have f1 := putProcess_follows o hr (Behind.refl o.cannedCodes m) hm hm befores (fun x hx => e1 x (hmb x hx))
    (fun x hx => e2 x (hmb x hx)) (e3.sublist sb) (fun x hx => e4 x (hmb x hx)) (execSort_of_pairwise (hso.sublist sb))
    hX.plainB hX.conflictB
  obtain ⟨d1, d2, d3, -⟩ := done_andThen hd
  obtain ⟨g1, b₁, -, -, s1, -⟩ := f1 d1
  have u1 := putProcess_unlisted o hr (toReplace o) hm befores hub (fun x hx => e1 x (hmb x hx))
    (fun x hx => e2 x (hmb x hx)) (e3.sublist sb) (fun x hx => e4 x (hmb x hx)) hX.plainB hX.conflictB d1
  have v1 := putProcess_again o hr (m := m) befores (fun x hx => e1 x (hmb x hx))
    (fun x hx => e2 x (hmb x hx)) (e3.sublist sb) (fun x hx => e4 x (hmb x hx)) (execSort_of_pairwise (hso.sublist sb))
    hX.plainB hX.conflictB d1
  have hm1 : (o.putProcess m befores).m = (m.processAll befores).1 := by rw [g1]
  rw [d3]
  rw [hm1] at d2 s1 ⊢
  have hsm := hX.small
  generalize (m.processAll befores).1 = m₁ at d2 s1 hsm ⊢
  clear hd d1 d3 f1 g1 hm1
  obtain ⟨d1, d2, d3, -⟩ := done_andThen d2
  obtain ⟨ls, w1, w2, w3⟩ := put_done d1
  have hcm : CommentOK none (if o.rmComments then none else
      some (.brackets ("linearized arc: ".toList ++ NormOpts.reprText g))) := by
    split_ifs
    · trivial
    · exact linearized_comment g hX.plainG
  have u2 := comment_unlisted o hr (toReplace o) _ hcm ls w1
  have v2 := comment_again o hr _ hcm ls w1
  rw [d3]
  rw [w3] at d2 ⊢
  rw [w2]
  clear d1 d3 w1 w2 w3
  obtain ⟨d1, d2, d3, -⟩ := done_andThen d2
  have u3 := arc_settled o hr hcc x fl hε hfl g hsm d1
  rw [d3, putArc_m]
  rw [putArc_m] at d2
  clear d1 d3
  obtain ⟨d1, d2, d3, -⟩ := done_andThen d2
  rw [d3, ofM_out, List.nil_append]
  have s2 : Sound (NormRes.ofM (m₁.processGcodes [g] [])).m := by
    have := s1.process g (e2 g hmg) (e1 g hmg)
    rw [processGcodes_sorted, execSort_single, processAll_one]
    generalize m₁.process g = r at this
    obtain ⟨r, - | e⟩ := r <;> exact this
  generalize (NormRes.ofM (m₁.processGcodes [g] [])).m = m₂ at d2 s2 ⊢
  clear d1 d3
  obtain ⟨d1, d2, d3, -⟩ := done_andThen d2
  have u4 := putProcess_unlisted o hr (toReplace o) s2 afters hua (fun x hx => e1 x (hma x hx))
    (fun x hx => e2 x (hma x hx)) (e3.sublist sa) (fun x hx => e4 x (hma x hx)) hX.plainA hX.conflictA d1
  have v4 := putProcess_again o hr (m := m₂) afters (fun x hx => e1 x (hma x hx))
    (fun x hx => e2 x (hma x hx)) (e3.sublist sa) (fun x hx => e4 x (hma x hx)) (execSort_of_pairwise (hso.sublist sa))
    hX.plainA hX.conflictA d1
  rw [d3]
  generalize (o.putProcess m₂ afters).m = m₃ at d2 ⊢
  have u5 : ∀ t ∈ (if l.comment = none then (⟨[], m₃, .done⟩ : NormRes) else NormRes.put m₃ (o.write [] [] l.comment)).out,
      Settled o t := by
    split_ifs at d2 ⊢ with hc
    · simp
    · obtain ⟨ls, w1, w2, -⟩ := put_done d2
      rw [w2]
      have hcm : CommentOK none (if o.rmComments then none else l.comment) := by
        split_ifs with hrm
        · trivial
        · refine commentOK_none c1 ?_
          rcases hX.comment with hX | hX | hX
          · exact absurd hX hrm
          · exact .inl hX
          · exact .inr hX
      exact fun s hs => ⟨comment_unlisted o hr (toReplace o) _ hcm ls w1 s hs, comment_again o hr _ hcm ls w1 s hs⟩
  intro t ht
  simp only [List.mem_append] at ht
  rcases ht with ht | ht | ht | ht | ht
  · exact ⟨u1 t ht, v1 t ht⟩
  · exact ⟨u2 t ht, v2 t ht⟩
  · exact u3 t ht
  · exact ⟨u4 t ht, v4 t ht⟩
  · exact u5 t ht

/-! ## Lines of the program -/

theorem lineA_settled (o : NormOpts) (hr : o.rmGcodes = []) (hi : o.rmInvalid = false)
    (hcc : o.cannedExpand = true → OnlyCycles o.cannedCodes) (x : ArcOpts) (hon : x.on = true)
    (fl : Floats) {ε : ℚ} (hε : ε < 1 / 2000) (hfl : FloatsOK ε fl)
    (fuel : ℕ) {m : Machine} (hm : Sound m) (hax : m.axes = xyz) (t : List Char)
    (ht : LineReplaces o x fuel m t)
    (hone : ∀ l gs, Line.ofText t = .ok l → m.blockModalGcodes l.block = .ok gs →
      gs.countP (fun g => decide (g.word ∈ toReplace o)) ≤ 1)
    (hd : (o.lineA x fl fuel m t).status = .done) : ∀ s ∈ (o.lineA x fl fuel m t).out, Settled o s := by
  unfold NormOpts.lineA at hd ⊢
  cases hl : Line.ofText t with
  | error e => rw [hl] at hd; cases hd
  | ok l =>
    rw [hl] at hd
    simp only [hi, Bool.false_eq_true, if_false] at hd ⊢
    cases hgs : m.blockModalGcodes l.block with
    | error e => rw [hgs] at hd; cases hd
    | ok gs =>
      rw [hgs] at hd
      have hx := ht l gs hl hgs
      simp only at hd ⊢
      obtain ⟨e1, e2, e3, e4, e5, e6⟩ := effective_ok hl hm.ok hm.named hgs
      by_cases harc : (x.on && gs.any (fun g => g.cls.isSub .arcMove)) = true
      · rw [if_pos harc] at hx hd ⊢
        exact arcLine_settled o hr hcc x fl hε hfl hm hl hgs hx (hone l gs hl hgs) hd
      · rw [if_neg harc] at hx hd ⊢
        rw [hon, Bool.true_and, Bool.not_eq_true] at harc
        by_cases hany : (o.cannedExpand && gs.any (fun g => decide (g.word ∈ o.cannedCodes))) = true
        · rw [if_pos hany] at hx hd ⊢
          have hce : o.cannedExpand = true := (Bool.and_eq_true_iff.1 hany).1
          have hsc : ∀ w ∈ o.cannedCodes, w ∈ toReplace o := fun w hw =>
            List.mem_append_left _ (by rw [if_pos hce]; exact hw)
          exact fun s hs => ⟨expandLine_unlisted o hr fuel (notMoves_replace o hcc) hsc hm (by rw [hax]) hl hgs hx
            (hone l gs hl hgs) hd s hs, expandLine_again o hr fuel hm (by rw [hax]) hl hgs hx hd s hs⟩
        · rw [if_neg hany] at hx hd ⊢
          have hno : ∀ g ∈ gs, g.word ∉ toReplace o := by
            intro g hg hc
            rcases List.mem_append.1 hc with hc | hc
            · split_ifs at hc with hce
              · apply hany
                rw [hce, Bool.true_and, List.any_eq_true]
                exact ⟨g, hg, by simpa using hc⟩
              · cases hc
            · simp only [List.mem_cons, List.not_mem_nil, or_false] at hc
              exact List.any_eq_false.1 harc g hg (word_arc hc (e1 g hg))
          obtain ⟨c1, c2⟩ := line_comment_ok hl
          have hbl := line_block_ok hl
          unfold NormOpts.plainLine at hd ⊢
          obtain ⟨d1, -, d3, -⟩ := done_andThen hd
          rw [d3, ofM_out, List.append_nil]
          obtain ⟨ls, w1, w2, -⟩ := put_done d1
          rw [w2]
          by_cases hf : o.full = true
          · rw [if_pos hf] at hx w1
            exact fun s hs => ⟨write_without o hr _ hm l gs [] hno hx (fun _ => rfl) e1 e2 e3 e4 (by simp) c1 c2 ls w1 s hs,
              write_again o hr l gs [] hx (fun _ => ⟨rfl, e5⟩) e1 e2 e3 e4 (by simp) c1 c2 ls w1 s hs⟩
          · rw [if_neg hf] at hx w1
            exact fun s hs => ⟨write_without o hr _ hm l _ _ (fun g hg => hno g (block_effective hgs g hg)) hx
                (fun h => absurd h hf) hbl.cls hbl.ok hbl.ordered hbl.ws hbl.unused c1 c2 ls w1 s hs,
              write_again o hr l _ _ hx (fun h => absurd h hf) hbl.cls hbl.ok hbl.ordered hbl.ws
                hbl.unused c1 c2 ls w1 s hs⟩

theorem loopA_settled (o : NormOpts) (hr : o.rmGcodes = []) (hi : o.rmInvalid = false)
    (hcc : o.cannedExpand = true → OnlyCycles o.cannedCodes) (x : ArcOpts) (hon : x.on = true)
    (fl : Floats) {ε : ℚ} (hε0 : 0 ≤ ε) (hε : ε < 1 / 2000) (hfl : FloatsOK ε fl) (fuel : ℕ) (ts : List (List Char)) :
    ∀ (m : Machine), Sound m → m.ignoreInvalid = false → m.axes = xyz → LinesReplace o x fuel m ts →
    OneListed (toReplace o) m ts →
    (o.loopA x fl fuel m ts).status = .done → ∀ s ∈ (o.loopA x fl fuel m ts).out, Settled o s := by
  induction ts with
  | nil => intro m _ _ _ _ _ _ t ht; cases ht
  | cons t ts ih =>
    intro m hm hig hax hts hone hd
    unfold NormOpts.loopA at hd ⊢
    obtain ⟨d1, d2, d3, -⟩ := done_andThen hd
    obtain ⟨f1, c, b, -, -, -, f2, -⟩ := lineA_trails o hr hi x hon fl hε0 hε hfl fuel (le_refl 0) (Behind.refl _ m)
      (Off.rfl' m) hm hm hm hax hig t hts.1 d1
    have hfr := str_frozen hm.wf t
    have hts' := hts.2
    have hone' := hone.2
    rw [f1] at hfr hts' hone'
    rw [d3]
    intro s hs
    rcases List.mem_append.1 hs with hs | hs
    · exact lineA_settled o hr hi hcc x hon fl hε hfl fuel hm hax t hts.1 hone.1 d1 s hs
    · refine ih _ f2 ((congrArg (fun x => x.2.1) hfr).trans hig) ?_ hts' hone' d2 s hs
      have : (o.lineA x fl fuel m t).m.axes = m.axes := congrArg Prod.fst hfr
      rw [this]; exact hax

/-! ## The second run -/

/-- Without listed gcodes, the loops are the same. -/
theorem lineA_plain (o : NormOpts) (hi : o.rmInvalid = false) (x : ArcOpts) (fl : Floats) (fuel : ℕ) {b : Machine}
    (hok : ModeOK b.mode) (hn : ModeAll Named b.mode) (hmo : ModeUnlisted (toReplace o) b) {s : List Char}
    (hu : Unlisted (toReplace o) s) :
    o.lineA x fl fuel b s = ({ o with cannedExpand := false } : NormOpts).line fuel b s := by
  obtain ⟨l, l1, hu⟩ := hu
  unfold NormOpts.lineA NormOpts.line
  rw [l1]
  simp only [hi, Bool.false_eq_true, if_false, Bool.false_and]
  cases hgs : b.blockModalGcodes l.block with
  | error e => rfl
  | ok gs =>
    have heu := effective_unlisted hok hn hmo l1 hu hgs
    obtain ⟨e1, -⟩ := effective_ok l1 hok hn hgs
    have h1 : gs.any (fun g => g.cls.isSub .arcMove) = false := by
      rw [List.any_eq_false]
      intro g hg harc
      refine heu g hg (List.mem_append_right _ ?_)
      rcases arc_word_table _ harc _ (e1 g hg) with h | h <;> rw [h] <;> simp
    have h2 : (o.cannedExpand && gs.any (fun g => decide (g.word ∈ o.cannedCodes))) = false := by
      rw [Bool.and_eq_false_iff]
      by_cases hce : o.cannedExpand = true
      · refine .inr ?_
        rw [List.any_eq_false]
        intro g hg hc
        refine heu g hg (List.mem_append_left _ ?_)
        rw [if_pos hce]
        simpa using hc
      · exact .inl (by simpa using hce)
    simp only [h1, Bool.and_false, Bool.false_eq_true, if_false, h2]
    rfl

theorem settled_loop (o : NormOpts) (hi : o.rmInvalid = false) (x : ArcOpts) (fl : Floats) (fuel : ℕ)
    {ss ts : List (List Char)} (h : List.Forall₂ (Again o) ss ts) : ∀ (b b' : Machine), b.WF → ModeOK b.mode →
    ModeAll Named b.mode → ModeUnlisted (toReplace o) b → (∀ s ∈ ss, Unlisted (toReplace o) s) →
    readLines b ss = (b', none) → o.loopA x fl fuel b ss = ⟨ts, b', .done⟩ ∧ readLines b ts = (b', none) := by
  induction h with
  | nil => intro b b' _ _ _ _ _ h; cases h; exact ⟨rfl, rfl⟩
  | @cons s t ss ts h1 _ ih =>
    intro b b' hwf hok hn hmo hu hrd
    unfold readLines andThen at hrd ⊢
    cases hp : b.processStr s with
    | mk m' e =>
      rw [hp] at hrd
      cases e with
      | some e => cases hrd
      | none =>
        simp only at hrd
        have hps := hp
        obtain ⟨l, l1, l2, l3⟩ := h1.line
        obtain ⟨l', l1', hu1⟩ := hu s (by simp)
        rw [l1] at l1'
        cases l1'
        have hcall : (Call.str s).OK b.axes b.absPos.unit := trivial
        have hm' : ((Call.str s).run b).1 = m' := by simp [Call.run, hp]
        have w1 := (path_call b hwf (.str s) hcall).wf hwf
        have w2 := kept_ok.call b hwf (.str s) hcall trivial hok
        have w3 := kept_named.call b hwf (.str s) hcall trivial hn
        rw [hm'] at w1 w2 w3
        unfold processStr at hp
        rw [l1] at hp
        simp only at hp
        obtain ⟨gs, hgs, hgs'⟩ : ∃ gs, b.blockModalGcodes l.block = .ok gs ∧ (o.full = true → gs = l.block.gcodes) := by
          unfold blockModalGcodes
          have hp' := hp
          unfold processBlock processGcodes at hp'
          cases hm : b.modalGcode l.block.modalParams with
          | error e => rw [hm] at hp'; cases hp'
          | ok og =>
            refine ⟨_, rfl, fun hf => ?_⟩
            obtain ⟨k1, k2⟩ := l3 hf
            rw [k1] at hm
            cases hm
            simpa using k2
        obtain ⟨-, e2, -, -, -, e6⟩ := effective_ok l1 hok hn hgs
        have heu := effective_unlisted hok hn hmo l1 hu1 hgs
        have w4 : ModeUnlisted (toReplace o) m' := by
          have := processAll_unlisted e2 heu hwf hmo
          rw [← e6, hp] at this
          exact this
        have hl : o.lineA x fl fuel b s = ⟨[t], m', .done⟩ := by
          rw [lineA_plain o hi x fl fuel hok hn hmo (hu s (by simp))]
          unfold NormOpts.line
          rw [l1]
          simp only [hi, Bool.false_eq_true, if_false]
          rw [hgs]
          simp only [Bool.false_and, Bool.false_eq_true, if_false]
          unfold NormOpts.plainLine
          have hw : (if o.full = true then o.write gs [] l.comment l.macro?
              else o.write l.block.gcodes l.block.modalParams l.comment l.macro?) = .ok [t] := by
            by_cases hfu : o.full = true
            · rw [if_pos hfu, hgs' hfu, ← (l3 hfu).1]; exact l2
            · rw [if_neg hfu]; exact l2
          have hw' : (if o.full = true then ({ o with cannedExpand := false } : NormOpts).write gs [] l.comment l.macro?
              else ({ o with cannedExpand := false } : NormOpts).write l.block.gcodes l.block.modalParams l.comment l.macro?) =
                .ok [t] := hw
          simp only [hi] at hw' ⊢
          rw [hw']
          unfold NormRes.put NormRes.andThen
          simp only
          rw [hp]
          simp [NormRes.ofM]
        obtain ⟨i1, i2⟩ := ih m' b' w1 w2 w3 w4 (fun x hx => hu x (by simp [hx])) hrd
        refine ⟨?_, ?_⟩
        · unfold NormOpts.loopA
          rw [hl]
          unfold NormRes.andThen
          simp only [i1]
          rfl
        · rw [← h1.read b, hps]
          exact i2

/-- **C110**: no line printed by `pygcode-norm --arc_linearize` has an arc, nor, with `--canned_expand`, a
gcode with a listed word, for every program that meets the conditions of **C73** and has at most one of them on a
line. -/
theorem C110_none (o : NormOpts) (hr : o.rmGcodes = []) (hi : o.rmInvalid = false)
    (hcc : o.cannedExpand = true → OnlyCycles o.cannedCodes) (x : ArcOpts) (hon : x.on = true)
    (fl : Floats) (ε : ℚ) (hε0 : 0 ≤ ε) (hε : ε < 1 / 2000) (hfl : FloatsOK ε fl) (fuel : ℕ) (m : Machine) (hm : Sound m)
    (hig : m.ignoreInvalid = false) (hax : m.axes = xyz) (ts : List (List Char)) (hts : LinesReplace o x fuel m ts)
    (hone : OneListed (toReplace o) m ts) (hd : (o.loopA x fl fuel m ts).status = .done) :
    ∀ t ∈ (o.loopA x fl fuel m ts).out, NoArc t ∧ Unlisted (toReplace o) t := by
  intro t ht
  have h := (loopA_settled o hr hi hcc x hon fl hε0 hε hfl fuel ts m hm hig hax hts hone hd t ht).1
  exact ⟨unlisted_noArc h, h⟩

/-- **C110**: run on its own output, the script prints it again, but for the blanks at the beginning of lines
(exactly, with `--full` or `--rm_whitespace`), whatever the options for arcs are then; a third run prints what
the second did. -/
theorem C110_again (o : NormOpts) (hr : o.rmGcodes = []) (hi : o.rmInvalid = false)
    (hcc : o.cannedExpand = true → OnlyCycles o.cannedCodes) (x : ArcOpts) (hon : x.on = true)
    (fl : Floats) (ε : ℚ) (hε0 : 0 ≤ ε) (hε : ε < 1 / 2000) (hfl : FloatsOK ε fl) (fuel : ℕ) (m : Machine) (hm : Sound m)
    (hig : m.ignoreInvalid = false) (hax : m.axes = xyz) (hmo : ModeUnlisted (toReplace o) m)
    (ts : List (List Char)) (hts : LinesReplace o x fuel m ts)
    (hone : OneListed (toReplace o) m ts) (hd : (o.loopA x fl fuel m ts).status = .done)
    (x' : ArcOpts) (fl' : Floats) (fuel' : ℕ) :
    (o.loopA x' fl' fuel' m (o.loopA x fl fuel m ts).out).status = .done ∧
    SameButIndent (o.loopA x fl fuel m ts).out (o.loopA x' fl' fuel' m (o.loopA x fl fuel m ts).out).out ∧
    (o.loopA x' fl' fuel' m (o.loopA x' fl' fuel' m (o.loopA x fl fuel m ts).out).out).out =
      (o.loopA x' fl' fuel' m (o.loopA x fl fuel m ts).out).out ∧
    (o.full = true ∨ o.rmWhitespace = true →
      (o.loopA x' fl' fuel' m (o.loopA x fl fuel m ts).out).out = (o.loopA x fl fuel m ts).out) := by
  have hset := loopA_settled o hr hi hcc x hon fl hε0 hε hfl fuel ts m hm hig hax hts hone hd
  obtain ⟨us, hus⟩ := again_exists (fun s hs => (hset s hs).2)
  have hun := fun s hs => (hset s hs).1
  obtain ⟨-, b, hb, -⟩ := C73_count_partial o hr hi x hon fl ε hε0 hε hfl fuel m hm hig hax ts hts hd
  obtain ⟨k1, k2⟩ := settled_loop o hi x' fl' fuel' hus m b hm.wf hm.ok hm.named hmo hun hb
  clear hset
  generalize (o.loopA x fl fuel m ts).out = ss at hus hun k1 ⊢
  rw [k1]
  have hfix : List.Forall₂ (Again o) us us := by
    refine List.forall₂_same.2 fun u hu => ?_
    obtain ⟨s, -, hs⟩ := again_mem hus u hu
    exact .of_fixed hs.fixed
  have hun' : ∀ u ∈ us, Unlisted (toReplace o) u := by
    intro u hu
    obtain ⟨s, hs1, hs⟩ := again_mem hus u hu
    exact hs.listed _ (hun s hs1)
  obtain ⟨k3, -⟩ := settled_loop o hi x' fl' fuel' hfix m b hm.wf hm.ok hm.named hmo hun' k2
  refine ⟨rfl, hus.imp fun _ _ h => h.indent, by simp only [k3], fun hf => ?_⟩
  have : List.Forall₂ (· = ·) us ss := hus.flip.imp fun _ _ h => h.same hf
  exact List.forall₂_eq_eq_eq ▸ this

/-! ## A program -/

/-- The theorems apply to a program with three arcs and a cycle. -/
example : (∀ t ∈ (defaultOpts.loopA arcSampleOpts floorFloats 20 newNull arcSample).out, NoArc t) ∧
    SameButIndent (defaultOpts.loopA arcSampleOpts floorFloats 20 newNull arcSample).out
      (defaultOpts.loopA arcSampleOpts floorFloats 20 newNull
        (defaultOpts.loopA arcSampleOpts floorFloats 20 newNull arcSample).out).out := by
  obtain ⟨h1, h2⟩ := programB_sound (o := defaultOpts) rfl rfl (x := arcSampleOpts) rfl (by norm_num [arcSampleOpts])
    (by norm_num [arcSampleOpts]) (by norm_num) (by norm_num) floorFloats_ok (fuel := 20) arcSample (m := newNull)
    (reader_null xyz).sound rfl rfl (by decide +kernel)
  have hcc : defaultOpts.cannedExpand = true → OnlyCycles defaultOpts.cannedCodes := fun _ => onlyCyclesB_sound (by decide +kernel)
  have hone : OneListed (toReplace defaultOpts) newNull arcSample := oneListedB_sound _ (by decide +kernel)
  refine ⟨fun t ht => (C110_none defaultOpts rfl rfl hcc arcSampleOpts rfl floorFloats _ (by norm_num) (by norm_num)
      floorFloats_ok 20 newNull (reader_null xyz).sound rfl rfl arcSample h1 hone h2 t ht).1, ?_⟩
  exact (C110_again defaultOpts rfl rfl hcc arcSampleOpts rfl floorFloats _ (by norm_num) (by norm_num)
      floorFloats_ok 20 newNull (reader_null xyz).sound rfl rfl (fun g h => (nomatch h)) arcSample h1 hone h2
      arcSampleOpts floorFloats 20).2.1

end Pygcode
