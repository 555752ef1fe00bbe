import Verif.Props.NormArcAgain
import Verif.Props.NormFormat

/-!
# C82 with expansions and linearized arcs: the form of what `pygcode-norm` prints
-/

namespace Pygcode
open Props Machine Spec

/-! ## Specification -/

/-- What the options promise about a printed line: it can be read, has at most one gcode with `--singles`, no
left-over words with `--full`, is not empty with `--rm_blanks`, has no comment with `--rm_comments`, and has no blanks
with `--rm_whitespace`, if there is nothing but the block. -/
def Shaped (o : NormOpts) (s : List Char) : Prop :=
  ∃ l, Line.ofText s = .ok l ∧ (o.singles = true → l.block.gcodes.length ≤ 1) ∧
    (o.full = true → l.block.modalParams = []) ∧ (o.rmBlanks = true → s ≠ []) ∧
    (o.rmComments = true → l.comment = none) ∧
    (o.rmWhitespace = true → l.comment = none → l.macro? = none → ∀ x ∈ s, isSpace x = false)

/-- One of the lines has the comment. -/
def ShowsComment (c : Option Comment) (ls : List (List Char)) : Prop :=
  c ≠ none → ∃ s ∈ ls, ∃ l, Line.ofText s = .ok l ∧ l.comment = c

/-! ## The form of a line that is printed again -/

theorem writeOne_single_length (o : NormOpts) (hr : o.rmGcodes = []) (g : GCode) (hcl : wordClass g.word = some g.cls)
    (hws : g.ws = false) (c : Option Comment) : (o.writeOne [g] [] c none).length = 1 := by
  unfold NormOpts.writeOne
  rw [if_neg, List.length_singleton]
  rintro ⟨h, -⟩
  revert h
  unfold NormOpts.lineText
  simp only
  apply joinWith_ne_nil
  have hlet : isSpace g.word.letter = false := by
    have := ((C15_lookup false g.word g.cls).1 hcl).1
    simp only [Bool.false_eq_true, false_or] at this
    have hall : ∀ x ∈ ['G', 'M', 'F', 'S', 'T', 'N', 'O'], isSpace x = false := by decide
    exact hall _ this
  have hstr : ∃ r, g.str = g.word.letter :: r := by
    unfold GCode.str
    rw [hws]
    exact ⟨_, rfl⟩
  obtain ⟨r, hstr⟩ := hstr
  have hb : ∃ y : List Char, y ≠ [] ∧ (if o.rmWhitespace = true then
      (joinWith [' '] (([g].map GCode.str) ++ ([] : List Word).map Word.str)).filter (fun x => !isSpace x)
      else joinWith [' '] (([g].map GCode.str) ++ ([] : List Word).map Word.str)) = y := by
    refine ⟨_, ?_, rfl⟩
    simp only [List.map_cons, List.map_nil, List.append_nil, joinWith, hstr]
    split_ifs
    · rw [List.filter_cons_of_pos (by simp [hlet])]; simp
    · simp
  obtain ⟨y, hy, he⟩ := hb
  refine ⟨y, ?_, hy⟩
  simp only [hr, if_true]
  rw [he, if_neg hy]
  simp

theorem fixed_bare {o : NormOpts} (hr : o.rmGcodes = []) {t : List Char} (h : Fixed o t) (hc : o.rmComments = true)
    {l : Line} (hl : Line.ofText t = .ok l) : l.comment = none := by
  obtain ⟨l', h1, h2, h3, h4, h5, h6⟩ := h
  rw [hl] at h1
  cases h1
  obtain ⟨c1, c2⟩ := line_comment_ok hl
  have hb := line_block_ok hl
  have hp : ∀ w ∈ l.block.gcodes.flatMap (fun g => g.word :: g.params) ++ l.block.modalParams, PlainWord w :=
    fun w hw => h4 w (hb.perm.mem_iff.1 hw)
  have hre := lineText_reread o hr l.block.gcodes l.block.modalParams l.comment l.macro? hb.cls hb.ok hb.ordered hb.ws
    hb.unused h5 hp hb.noConflict (by rw [if_pos hc]; trivial) c2 (by rw [if_pos hc]; right; intro t ht; cases ht)
  unfold NormOpts.write at h2
  split_ifs at h2 with k1 k2
  · exfalso
    have hlen := congrArg List.length (Except.ok.inj h2)
    rw [List.length_flatMap, List.map_congr_left (g := fun _ => 1)] at hlen
    · simp [(execSort_stable l.block.gcodes).1.length_eq] at hlen
      omega
    · intro g hg
      have hg := (execSort_stable l.block.gcodes).1.mem_iff.1 hg
      exact writeOne_single_length o hr g (hb.cls g hg) (hb.ws g hg) _
  · have h2 := Except.ok.inj h2
    unfold NormOpts.writeOne at h2
    split_ifs at h2
    have h2 := List.singleton_inj.1 h2
    rw [h2, hl] at hre
    have := congrArg Line.comment (Except.ok.inj hre)
    rw [this]
    simp [hc]

theorem Again.shaped {o : NormOpts} (hr : o.rmGcodes = []) {s t : List Char} (h : Again o s t) : Shaped o s := by
  obtain ⟨l, l1, l2, l3⟩ := h.line
  obtain ⟨l', l1', -⟩ := id h.fixed
  have hb := line_block_ok l1
  have hsing : ¬ (o.singles = true ∧ 1 < l.block.gcodes.length) := by
    intro hs
    unfold NormOpts.write at l2
    split_ifs at l2 with k1
    have hlen := congrArg List.length (Except.ok.inj l2)
    rw [List.length_flatMap, List.map_congr_left (g := fun _ => 1)] at hlen
    · simp [(execSort_stable l.block.gcodes).1.length_eq] at hlen
      omega
    · intro g hg
      have hg := (execSort_stable l.block.gcodes).1.mem_iff.1 hg
      exact writeOne_single_length o hr g (hb.cls g hg) (hb.ws g hg) _
  have hone : t = o.lineText l.block.gcodes l.block.modalParams l.comment l.macro? ∧ (o.rmBlanks = true → t ≠ []) := by
    unfold NormOpts.write at l2
    split_ifs at l2 with k1
    have l2 := Except.ok.inj l2
    unfold NormOpts.writeOne at l2
    split_ifs at l2 with k2
    have l2 := List.singleton_inj.1 l2
    refine ⟨l2.symm, fun hbl ht => k2 ⟨by rw [l2, ht], hbl⟩⟩
  refine ⟨l, l1, ?_, fun hf => (l3 hf).1, ?_, ?_, ?_⟩
  · intro hs
    by_contra hc
    exact hsing ⟨hs, by omega⟩
  · intro hbl hs
    obtain ⟨n, hn⟩ := h.indent
    rw [hs] at hn
    exact hone.2 hbl (List.append_eq_nil_iff.1 hn.symm).2
  · intro hc
    rw [h.bare l l1 l' l1']
    exact fixed_bare hr h.fixed hc l1'
  · intro hw hcn hmn x hx
    rw [← h.same (.inr hw), hone.1, hcn, hmn] at hx
    unfold NormOpts.lineText at hx
    simp only [hw, if_true, Option.toList_none, List.append_nil, ite_self, Option.map_none] at hx
    generalize joinWith [' '] (_ ++ _) = y at hx
    by_cases hy : y.filter (fun x => !isSpace x) = []
    · rw [if_pos hy] at hx; cases hx
    · rw [if_neg hy] at hx
      simpa using (List.mem_filter.1 hx).2

/-! ## Lines of the program -/

theorem arc_again (o : NormOpts) (hr : o.rmGcodes = []) (x : ArcOpts) (fl : Floats) {ε : ℚ}
    (hε : ε < 1 / 2000) (hfl : FloatsOK ε fl) {m : Machine} (g : GCode)
    (hsm : ∀ p am, m.pos = .ok p → ∀ v ∈ arcVertices x m p am g, ∀ a ∈ xyz, |v.at a| ≤ 999)
    (hd : (o.putArc x fl m g).status = .done) : ∀ s ∈ (o.putArc x fl m g).out, ∃ t, Again o s t := by
  intro s hs
  obtain ⟨v, b, hv, hb, hs⟩ := arc_written o x fl hε hfl g hsm hd s hs
  exact written_again o hr _ (linear_plain v hv) linear_group.1 (by simp [linearTo]) b hb s hs

theorem arcLine_again (o : NormOpts) (hr : o.rmGcodes = []) (x : ArcOpts) (fl : Floats) {ε : ℚ} (hε : ε < 1 / 2000) (hfl : FloatsOK ε fl)
    {m : Machine} (hm : Sound m) {t : List Char} {l : Line}
    (hl : Line.ofText t = .ok l) {gs : List GCode} (hgs : m.blockModalGcodes l.block = .ok gs)
    (hx : ∀ befores g afters, splitGcodes gs .arcMove true = (befores, [g], afters) → Linearizes o x m l befores g afters)
    (hd : (o.arcLine x fl m gs l.comment).status = .done) :
    ∀ s ∈ (o.arcLine x fl m gs l.comment).out, ∃ t, Again o s t := by
  obtain ⟨e1, e2, e3, e4, e5, e6⟩ := effective_ok hl hm.ok hm.named hgs
  have hso : gs.Pairwise (fun a b => a.cls.order ≤ b.cls.order) := by
    have := (execSort_stable gs).2.1
    rw [e5] at this
    exact this
  obtain ⟨c1, -⟩ := line_comment_ok hl
  unfold NormOpts.arcLine at hd ⊢
  split at hd
  swap
  · cases hd
  rename_i befores g afters hsp
  obtain ⟨ha, hsub⟩ := split_append hsp
  have hX := hx befores g afters hsp
  rw [e5] at ha
  have hmb : ∀ x ∈ befores, x ∈ gs := fun x hx => by rw [ha]; simp [hx]
  have hmg : g ∈ gs := by rw [ha]; simp
  have hma : ∀ x ∈ afters, x ∈ gs := fun x hx => by rw [ha]; simp [hx]
  have sb : befores.Sublist gs := by rw [ha]; exact List.sublist_append_left _ _
  have sa : afters.Sublist gs := by
    rw [ha]; exact (List.sublist_cons_self g afters).trans (List.sublist_append_right _ _)
  have f1 := putProcess_follows o hr (Behind.refl o.cannedCodes m) hm hm befores (fun x hx => e1 x (hmb x hx))
    (fun x hx => e2 x (hmb x hx)) (e3.sublist sb) (fun x hx => e4 x (hmb x hx)) (execSort_of_pairwise (hso.sublist sb))
    hX.plainB hX.conflictB
  obtain ⟨d1, d2, d3, -⟩ := done_andThen hd
  obtain ⟨g1, b₁, -, -, s1, -⟩ := f1 d1
  have v1 := putProcess_again o hr (m := m) befores (fun x hx => e1 x (hmb x hx))
    (fun x hx => e2 x (hmb x hx)) (e3.sublist sb) (fun x hx => e4 x (hmb x hx)) (execSort_of_pairwise (hso.sublist sb))
    hX.plainB hX.conflictB d1
  have hm1 : (o.putProcess m befores).m = (m.processAll befores).1 := by rw [g1]
  rw [d3]
  rw [hm1] at d2 s1 ⊢
  have hsm := hX.small
  generalize (m.processAll befores).1 = m₁ at d2 s1 hsm ⊢
  clear hd d1 d3 f1 g1 hm1
  obtain ⟨d1, d2, d3, -⟩ := done_andThen d2
  obtain ⟨ls, w1, w2, w3⟩ := put_done d1
  have hcm : CommentOK none (if o.rmComments then none else
      some (.brackets ("linearized arc: ".toList ++ NormOpts.reprText g))) := by
    split_ifs
    · trivial
    · exact linearized_comment g hX.plainG
  have v2 := comment_again o hr _ hcm ls w1
  rw [d3]
  rw [w3] at d2 ⊢
  rw [w2]
  clear d1 d3 w1 w2 w3
  obtain ⟨d1, d2, d3, -⟩ := done_andThen d2
  have u3 := arc_again o hr x fl hε hfl g hsm d1
  rw [d3, putArc_m]
  rw [putArc_m] at d2
  clear d1 d3
  obtain ⟨d1, d2, d3, -⟩ := done_andThen d2
  rw [d3, ofM_out, List.nil_append]
  have s2 : Sound (NormRes.ofM (m₁.processGcodes [g] [])).m := by
    have := s1.process g (e2 g hmg) (e1 g hmg)
    rw [processGcodes_sorted, execSort_single, processAll_one]
    generalize m₁.process g = r at this
    obtain ⟨r, - | e⟩ := r <;> exact this
  generalize (NormRes.ofM (m₁.processGcodes [g] [])).m = m₂ at d2 s2 ⊢
  clear d1 d3
  obtain ⟨d1, d2, d3, -⟩ := done_andThen d2
  have v4 := putProcess_again o hr (m := m₂) afters (fun x hx => e1 x (hma x hx))
    (fun x hx => e2 x (hma x hx)) (e3.sublist sa) (fun x hx => e4 x (hma x hx)) (execSort_of_pairwise (hso.sublist sa))
    hX.plainA hX.conflictA d1
  rw [d3]
  generalize (o.putProcess m₂ afters).m = m₃ at d2 ⊢
  have u5 : ∀ t ∈ (if l.comment = none then (⟨[], m₃, .done⟩ : NormRes) else NormRes.put m₃ (o.write [] [] l.comment)).out,
      ∃ t', Again o t t' := by
    split_ifs at d2 ⊢ with hc
    · simp
    · obtain ⟨ls, w1, w2, -⟩ := put_done d2
      rw [w2]
      have hcm : CommentOK none (if o.rmComments then none else l.comment) := by
        split_ifs with hrm
        · trivial
        · refine commentOK_none c1 ?_
          rcases hX.comment with hX | hX | hX
          · exact absurd hX hrm
          · exact .inl hX
          · exact .inr hX
      exact comment_again o hr _ hcm ls w1
  intro t ht
  simp only [List.mem_append] at ht
  rcases ht with ht | ht | ht | ht | ht
  · exact v1 t ht
  · exact v2 t ht
  · exact u3 t ht
  · exact v4 t ht
  · exact u5 t ht


/-- The comment on a line of its own. -/
theorem comment_shown (o : NormOpts) (hr : o.rmGcodes = []) (hrm : o.rmComments = false) {c : Option Comment} (hc : CommentOK none c)
    {m : Machine} (hd : (if c = none then (⟨[], m, .done⟩ : NormRes) else NormRes.put m (o.write [] [] c)).status = .done) :
    ShowsComment c (if c = none then (⟨[], m, .done⟩ : NormRes) else NormRes.put m (o.write [] [] c)).out := by
  intro hne
  rw [if_neg hne] at hd ⊢
  obtain ⟨ls, w1, w2, -⟩ := put_done hd
  rw [w2]
  unfold NormOpts.write at w1
  rw [if_neg (by simp), if_neg (by simp)] at w1
  cases w1
  have hre := lineText_reread o hr [] [] c none (by simp) (by simp) (by simp [Ordered]) (by simp) (by simp) (by simp)
    (by simp) (short_conflict _ (by simp)) (by rw [hrm]; exact hc) (by simp) (.inl rfl)
  have hnn : o.lineText [] [] c none ≠ [] := by
    obtain ⟨x, rfl⟩ := Option.ne_none_iff_exists'.1 hne
    unfold NormOpts.lineText
    simp only
    apply joinWith_ne_nil
    rw [hrm]
    exact ⟨x.str, by simp, comment_str_ne x⟩
  refine ⟨_, ?_, _, hre, ?_⟩
  · unfold NormOpts.writeOne
    rw [if_neg (fun h => hnn h.1)]
    simp
  · simp [hrm]

theorem shows_append {c : Option Comment} {a b : List (List Char)} (h : ShowsComment c b) : ShowsComment c (a ++ b) := by
  intro hc
  obtain ⟨s, h1, h2⟩ := h hc
  exact ⟨s, List.mem_append_right _ h1, h2⟩

theorem arcLine_comment (o : NormOpts) (hr : o.rmGcodes = []) (hrm : o.rmComments = false) (x : ArcOpts) (fl : Floats)
    {m : Machine} {gs : List GCode} {c : Option Comment} (hc : CommentOK none c)
    (hd : (o.arcLine x fl m gs c).status = .done) : ShowsComment c (o.arcLine x fl m gs c).out := by
  unfold NormOpts.arcLine at hd ⊢
  split at hd
  swap
  · cases hd
  obtain ⟨-, d, e, -⟩ := done_andThen hd
  rw [e]; clear hd e
  obtain ⟨-, hd, e, -⟩ := done_andThen d
  rw [e]; clear d e
  obtain ⟨-, d, e, -⟩ := done_andThen hd
  rw [e]; clear hd e
  obtain ⟨-, hd, e, -⟩ := done_andThen d
  rw [e]; clear d e
  obtain ⟨-, d, e, -⟩ := done_andThen hd
  rw [e]; clear hd e
  exact shows_append (shows_append (shows_append (shows_append (shows_append (comment_shown o hr hrm hc d)))))

theorem expandLine_comment (o : NormOpts) (hr : o.rmGcodes = []) (hrm : o.rmComments = false) (fuel : ℕ)
    {m : Machine} {gs : List GCode} {c : Option Comment} (hc : CommentOK none c)
    (hd : (o.expandLine fuel m gs c).status = .done) : ShowsComment c (o.expandLine fuel m gs c).out := by
  unfold NormOpts.expandLine at hd ⊢
  split at hd
  swap
  · cases hd
  obtain ⟨-, d, e, -⟩ := done_andThen hd
  rw [e]; clear hd e
  obtain ⟨-, hd, e, -⟩ := done_andThen d
  rw [e]; clear d e
  obtain ⟨-, d, e, -⟩ := done_andThen hd
  rw [e]; clear hd e
  obtain ⟨-, hd, e, -⟩ := done_andThen d
  rw [e]; clear d e
  obtain ⟨-, d, e, -⟩ := done_andThen hd
  rw [e]; clear hd e
  exact shows_append (shows_append (shows_append (shows_append (shows_append (comment_shown o hr hrm hc d)))))

/-- What is promised about the lines printed for `t`. -/
def LineShaped (o : NormOpts) (t : List Char) (ls : List (List Char)) : Prop :=
  (∀ s ∈ ls, Shaped o s) ∧ ∃ l, Line.ofText t = .ok l ∧ (o.rmComments = false → ShowsComment l.comment ls)

/-- Either branch for lines that are not replaced. -/
theorem plainLine_shaped (o : NormOpts) (hr : o.rmGcodes = []) {m : Machine} (hok : ModeOK m.mode)
    (hn : ModeAll Named m.mode) {t : List Char} {l : Line} (hl : Line.ofText t = .ok l) {gs : List GCode}
    (hgs : m.blockModalGcodes l.block = .ok gs)
    (hx : if o.full = true then Tidy o l gs [] else Tidy o l l.block.gcodes l.block.modalParams)
    (hd : (o.plainLine m l gs).status = .done) : LineShaped o t (o.plainLine m l gs).out := by
  obtain ⟨e1, e2, e3, e4, e5, e6⟩ := effective_ok hl hok hn hgs
  obtain ⟨c1, c2⟩ := line_comment_ok hl
  have hb := line_block_ok hl
  unfold NormOpts.plainLine at hd ⊢
  obtain ⟨d1, -, d3, -⟩ := done_andThen hd
  rw [d3, ofM_out, List.append_nil]
  obtain ⟨ls, w1, w2, -⟩ := put_done d1
  rw [w2]
  have hpr : Promised o l ls ∧ ∀ s ∈ ls, ∃ t, Again o s t := by
    by_cases hf : o.full = true
    · rw [if_pos hf] at hx w1
      exact ⟨write_promised o hr l gs [] hx (fun _ => rfl) e1 e2 e3 e4 (by simp) c1 c2 ls w1,
        write_again o hr l gs [] hx (fun _ => ⟨rfl, e5⟩) e1 e2 e3 e4 (by simp) c1 c2 ls w1⟩
    · rw [if_neg hf] at hx w1
      exact ⟨write_promised o hr l _ _ hx (fun h => absurd h hf) hb.cls hb.ok hb.ordered hb.ws hb.unused c1 c2 ls w1,
        write_again o hr l _ _ hx (fun h => absurd h hf) hb.cls hb.ok hb.ordered hb.ws hb.unused c1 c2 ls w1⟩
  refine ⟨fun s hs => ?_, l, hl, fun hrm hne => ?_⟩
  · obtain ⟨u, hu⟩ := hpr.2 s hs
    exact hu.shaped hr
  · obtain ⟨s, hs⟩ := List.exists_mem_of_ne_nil _ (hpr.1.comment hrm hne)
    obtain ⟨l', h1, h2, -⟩ := hpr.1.lines s hs
    refine ⟨s, hs, l', h1, ?_⟩
    rw [h2, hrm]
    simp

theorem expands_comment {o : NormOpts} (hrm : o.rmComments = false) {l : Line} (c1 : CommentOK l.macro? l.comment)
    (h : o.rmComments = true ∨ l.macro? = none ∨ ∀ c, l.comment = some (.semicolon c) → c = []) :
    CommentOK none l.comment := by
  refine commentOK_none c1 ?_
  rcases h with h | h | h
  · rw [hrm] at h; cases h
  · exact .inl h
  · exact .inr h

theorem lineA_shaped (o : NormOpts) (hr : o.rmGcodes = []) (hi : o.rmInvalid = false)
    (x : ArcOpts) (fl : Floats) {ε : ℚ} (hε : ε < 1 / 2000) (hfl : FloatsOK ε fl)
    (fuel : ℕ) {m : Machine} (hm : Sound m) (hax : xyz ⊆ m.axes) (t : List Char)
    (ht : LineReplaces o x fuel m t)
    (hd : (o.lineA x fl fuel m t).status = .done) : LineShaped o t (o.lineA x fl fuel m t).out := by
  unfold NormOpts.lineA at hd ⊢
  cases hl : Line.ofText t with
  | error e => rw [hl] at hd; cases hd
  | ok l =>
    rw [hl] at hd
    simp only [hi, Bool.false_eq_true, if_false] at hd ⊢
    cases hgs : m.blockModalGcodes l.block with
    | error e => rw [hgs] at hd; cases hd
    | ok gs =>
      rw [hgs] at hd
      have hx := ht l gs hl hgs
      simp only at hd ⊢
      obtain ⟨c1, c2⟩ := line_comment_ok hl
      by_cases harc : (x.on && gs.any (fun g => g.cls.isSub .arcMove)) = true
      · rw [if_pos harc] at hx hd ⊢
        refine ⟨fun s hs => ?_, l, hl, fun hrm => ?_⟩
        · obtain ⟨u, hu⟩ := arcLine_again o hr x fl hε hfl hm hl hgs hx hd s hs
          exact hu.shaped hr
        · obtain ⟨b, g, a, hsp⟩ : ∃ b g a, splitGcodes gs .arcMove true = (b, [g], a) := by
            unfold NormOpts.arcLine at hd
            split at hd
            · exact ⟨_, _, _, ‹_›⟩
            · cases hd
          exact arcLine_comment o hr hrm x fl (expands_comment hrm c1 (hx b g a hsp).comment) hd
      · rw [if_neg harc] at hx hd ⊢
        by_cases hany : (o.cannedExpand && gs.any (fun g => decide (g.word ∈ o.cannedCodes))) = true
        · rw [if_pos hany] at hx hd ⊢
          refine ⟨fun s hs => ?_, l, hl, fun hrm => ?_⟩
          · obtain ⟨u, hu⟩ := expandLine_again o hr fuel hm hax hl hgs hx hd s hs
            exact hu.shaped hr
          · obtain ⟨b, g, a, hsp⟩ : ∃ b g a, splitGcodes gs .cannedCycle true = (b, [g], a) := by
              unfold NormOpts.expandLine at hd
              split at hd
              · exact ⟨_, _, _, ‹_›⟩
              · cases hd
            exact expandLine_comment o hr hrm fuel (expands_comment hrm c1 (hx b g a hsp).comment) hd
        · rw [if_neg hany] at hx hd ⊢
          refine plainLine_shaped o hr hm.ok hm.named hl hgs ?_ hd
          exact hx

/-- **C82** with `--arc_linearize` (and optionally `--canned_expand`): for programs as in **C73**, when the
script has read the lines, what is printed is, in order, for every line what the options promise: each printed line has
the form, and the comment is shown unless comments are removed. -/
theorem C82_replaced (o : NormOpts) (hr : o.rmGcodes = []) (hi : o.rmInvalid = false) (x : ArcOpts) (hon : x.on = true)
    (fl : Floats) (ε : ℚ) (hε0 : 0 ≤ ε) (hε : ε < 1 / 2000) (hfl : FloatsOK ε fl) (fuel : ℕ) (ts : List (List Char)) :
    ∀ m : Machine, Sound m → m.ignoreInvalid = false → m.axes = xyz → LinesReplace o x fuel m ts →
    (o.loopA x fl fuel m ts).status = .done →
    ∃ groups : List (List (List Char)), (o.loopA x fl fuel m ts).out = groups.flatten ∧
      List.Forall₂ (LineShaped o) ts groups := by
  induction ts with
  | nil => intro m _ _ _ _ _; exact ⟨[], rfl, .nil⟩
  | cons t ts ih =>
    intro m hm hig hax hts hd
    unfold NormOpts.loopA at hd ⊢
    obtain ⟨d1, d2, d3, -⟩ := done_andThen hd
    obtain ⟨f1, c, b, -, -, -, f2, -⟩ := lineA_trails o hr hi x hon fl hε0 hε hfl fuel (le_refl 0) (Behind.refl _ m)
      (Off.rfl' m) hm hm hm hax hig t hts.1 d1
    have hfr := str_frozen hm.wf t
    have hts' := hts.2
    rw [f1] at hfr hts'
    obtain ⟨groups, g1, g2⟩ := ih _ f2 ((congrArg (fun x => x.2.1) hfr).trans hig)
      ((show _ = m.axes from congrArg Prod.fst hfr).trans hax) hts' d2
    refine ⟨(o.lineA x fl fuel m t).out :: groups, ?_, .cons ?_ g2⟩
    · rw [d3, g1]; rfl
    · exact lineA_shaped o hr hi x fl hε hfl fuel hm (by rw [hax]) t hts.1 d1

/-- **C82** with `--canned_expand`: the same for programs as in **C67**. -/
theorem C82_expanded (o : NormOpts) (hr : o.rmGcodes = []) (hi : o.rmInvalid = false) (hce : o.cannedExpand = true)
    (fuel : ℕ) (ts : List (List Char)) :
    ∀ m : Machine, Sound m → m.ignoreInvalid = false → xyz ⊆ m.axes → LinesExpand o fuel m ts →
    (o.loop fuel m ts).status = .done →
    ∃ groups : List (List (List Char)), (o.loop fuel m ts).out = groups.flatten ∧
      List.Forall₂ (LineShaped o) ts groups := by
  induction ts with
  | nil => intro m _ _ _ _ _; exact ⟨[], rfl, .nil⟩
  | cons t ts ih =>
    intro m hm hig hax hts hd
    unfold NormOpts.loop at hd ⊢
    obtain ⟨d1, d2, d3, -⟩ := done_andThen hd
    obtain ⟨f1, b, -, -, f2, -⟩ := line_follows o hr hi hce fuel (Behind.refl o.cannedCodes m) hm hm hig hax t hts.1 d1
    have hfr := str_frozen hm.wf t
    have hts' := hts.2
    rw [f1] at hfr hts'
    obtain ⟨groups, g1, g2⟩ := ih _ f2 ((congrArg (fun x => x.2.1) hfr).trans hig)
      (by
        have : (o.line fuel m t).m.axes = m.axes := congrArg Prod.fst hfr
        rw [this]; exact hax) hts' d2
    refine ⟨(o.line fuel m t).out :: groups, ?_, .cons ?_ g2⟩
    · rw [d3, g1]; rfl
    · have key := lineA_shaped o hr hi ⟨false, (.mid, .mid), 0⟩ floorFloats (by norm_num)
        floorFloats_ok fuel hm hax t (by
          intro l gs hl hgs
          simpa using hts.1 l gs hl hgs)
      have hline : o.lineA ⟨false, (.mid, .mid), 0⟩ floorFloats fuel m t = o.line fuel m t := by
        unfold NormOpts.lineA NormOpts.line
        rfl
      rw [hline] at key
      exact key d1

/-! ## Programs -/

/-- The theorems apply to a program with three arcs and a cycle. -/
example : (∀ t ∈ (defaultOpts.loopA arcSampleOpts floorFloats 20 newNull arcSample).out, Shaped defaultOpts t) := by
  obtain ⟨h1, h2⟩ := programB_sound (o := defaultOpts) rfl rfl (x := arcSampleOpts) rfl (by norm_num [arcSampleOpts])
    (by norm_num [arcSampleOpts]) (by norm_num) (by norm_num) floorFloats_ok (fuel := 20) arcSample (m := newNull)
    (reader_null xyz).sound rfl rfl (by decide +kernel)
  obtain ⟨groups, g1, g2⟩ := C82_replaced defaultOpts rfl rfl arcSampleOpts rfl floorFloats _ (by norm_num) (by norm_num)
    floorFloats_ok 20 arcSample newNull (reader_null xyz).sound rfl rfl h1 h2
  intro t ht
  rw [g1] at ht
  obtain ⟨ls, hls, ht⟩ := List.mem_flatten.1 ht
  obtain ⟨u, -, hu⟩ := forall₂_left g2.flip hls
  exact hu.1 t ht

/-- And to one with cycles, without blanks. -/
example : ∃ groups : List (List (List Char)), (tightOpts.loop 20 newNull expandSample).out = groups.flatten ∧
    List.Forall₂ (LineShaped tightOpts) expandSample groups :=
  C82_expanded tightOpts rfl rfl rfl 20 expandSample newNull (reader_null xyz).sound rfl (Finset.Subset.refl _)
    (linesExpandB_sound _ (by decide +kernel)) (by decide +kernel)

end Pygcode
