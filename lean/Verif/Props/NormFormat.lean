import Verif.Props.NormNone

/-!
# Property C82: the form of what `pygcode-norm` prints
-/

namespace Pygcode
open Props Machine Spec

/-! ## Specification -/

/-- What the options promise about the lines `ls` printed for the line `l`: each of them can be read, has
the comment of `l` unless comments are removed, at most one gcode with `--singles`, no left-over words
with `--full`, is not empty with `--rm_blanks`, and has no blanks in its block with `--rm_whitespace` (so
none at all, if there is nothing but the block); there is at least one if there is a comment to be shown,
and one has the macro unless `--singles` puts the gcodes on several lines. -/
structure Promised (o : NormOpts) (l : Line) (ls : List (List Char)) : Prop where
  lines : ∀ t ∈ ls, ∃ l', Line.ofText t = .ok l' ∧ l'.comment = (if o.rmComments then none else l.comment) ∧
    (o.singles = true → l'.block.gcodes.length ≤ 1) ∧ (o.full = true → l'.block.modalParams = []) ∧
    (o.rmBlanks = true → t ≠ []) ∧
    (o.rmWhitespace = true → l'.comment = none → l'.macro? = none → ∀ x ∈ t, isSpace x = false) ∧
    (l'.macro? = none ∨ l'.macro? = l.macro?)
  comment : o.rmComments = false → l.comment ≠ none → ls ≠ []
  mac : o.singles = false → l.macro? ≠ none → ∃ t ∈ ls, ∃ l', Line.ofText t = .ok l' ∧ l'.macro? = l.macro?

/-! ## One line -/

theorem joinWith_ne_nil {ls : List (List Char)} (h : ∃ x ∈ ls, x ≠ []) : joinWith [' '] ls ≠ [] := by
  cases ls with
  | nil => simp at h
  | cons a ls =>
    cases ls with
    | nil => simpa [joinWith] using h
    | cons b ls => rw [joinWith_cons _ _ (by simp)]; simp

theorem comment_str_ne (c : Comment) : c.str ≠ [] := by cases c <;> simp [Comment.str]

theorem writeOne_promised (o : NormOpts) (hr : o.rmGcodes = []) (gs : List GCode) (mp : List Word)
    (c : Option Comment) (mac : Option (List Char))
    (hfull : o.full = true → mp = []) (hs : ¬ (o.singles = true ∧ 1 < gs.length))
    (hcl : ∀ g ∈ gs, wordClass g.word = some g.cls)
    (hg : ∀ g ∈ gs, GOK g) (ho : Ordered gs) (hws : ∀ g ∈ gs, g.ws = false)
    (hm : ∀ w ∈ mp, wordClass w = none) (hd : ∀ g ∈ gs, ∀ w ∈ mp, w.letter ∉ g.cls.params)
    (hp : ∀ w ∈ gs.flatMap (fun g => g.word :: g.params) ++ mp, PlainWord w)
    (hnc : ¬ Conflict gs)
    (hc : CommentOK mac (if o.rmComments then none else c))
    (hmac : ∀ m', mac = some m' → ∃ r, m' = '%' :: r ∧ '\n' ∉ r)
    (hcm : mac = none ∨ ∀ t, (if o.rmComments then none else c) = some (.semicolon t) → t = []) (b : Block) :
    Promised o ⟨b, c, mac⟩ (o.writeOne gs mp c mac) := by
  have hl := lineText_reread o hr gs mp c mac hcl hg ho hws hm hd hp hnc hc hmac hcm
  have hne : ((if o.rmComments then none else c) ≠ none ∨ mac ≠ none) → o.lineText gs mp c mac ≠ [] := by
    intro h
    unfold NormOpts.lineText
    simp only
    apply joinWith_ne_nil
    generalize (if o.rmComments = true then none else c) = c' at h
    rcases h with h | h
    · obtain ⟨x, rfl⟩ := Option.ne_none_iff_exists'.1 h
      exact ⟨x.str, by simp, comment_str_ne x⟩
    · obtain ⟨x, rfl⟩ := Option.ne_none_iff_exists'.1 h
      obtain ⟨r, rfl, -⟩ := hmac x rfl
      exact ⟨'%' :: r, List.mem_append.2 (.inr (by simp)), List.cons_ne_nil _ _⟩
  have hmem : ∀ t ∈ o.writeOne gs mp c mac, t = o.lineText gs mp c mac ∧ ¬ (t = [] ∧ o.rmBlanks = true) := by
    intro t ht
    unfold NormOpts.writeOne at ht
    by_cases hz : o.lineText gs mp c mac = [] ∧ o.rmBlanks = true
    · rw [if_pos hz] at ht; simp at ht
    · rw [if_neg hz, List.mem_singleton] at ht
      subst ht; exact ⟨rfl, hz⟩
  have hone : ((if o.rmComments then none else c) ≠ none ∨ mac ≠ none) →
      o.writeOne gs mp c mac = [o.lineText gs mp c mac] := by
    intro h
    unfold NormOpts.writeOne
    rw [if_neg (fun h2 => hne h h2.1)]
  refine ⟨?_, ?_, ?_⟩
  · intro t ht
    obtain ⟨rfl, hb⟩ := hmem t ht
    refine ⟨_, hl, rfl, ?_, hfull, fun h1 h2 => hb ⟨h2, h1⟩, ?_, .inr rfl⟩
    · intro h1
      simp only [List.length_map]
      by_contra h2
      exact hs ⟨h1, by omega⟩
    · intro h1 h2 h3 x hx
      simp only at h2 h3
      subst h3
      unfold NormOpts.lineText at hx
      simp only [h1, h2, if_true, Option.map_none, Option.toList_none, List.append_nil] at hx
      generalize joinWith [' '] (_ ++ _) = y at hx
      by_cases hy : y.filter (fun x => !isSpace x) = []
      · rw [if_pos hy] at hx; cases hx
      · rw [if_neg hy] at hx
        simpa using (List.mem_filter.1 hx).2
  · intro h1 h2
    rw [hone (.inl (by rw [h1]; simpa using h2))]; simp
  · intro _ h2
    rw [hone (.inr h2)]
    exact ⟨_, List.mem_singleton.2 rfl, _, hl, rfl⟩

theorem write_promised (o : NormOpts) (hr : o.rmGcodes = []) (l : Line) (gs : List GCode) (mp : List Word)
    (hl : Tidy o l gs mp) (hfull : o.full = true → mp = [])
    (hcl : ∀ g ∈ gs, wordClass g.word = some g.cls)
    (hg : ∀ g ∈ gs, GOK g) (ho : Ordered gs) (hws : ∀ g ∈ gs, g.ws = false)
    (hm : ∀ w ∈ mp, wordClass w = none)
    (hc : CommentOK l.macro? l.comment)
    (hmac : ∀ m', l.macro? = some m' → ∃ r, m' = '%' :: r ∧ '\n' ∉ r)
    (ls : List (List Char)) (h : o.write gs mp l.comment l.macro? = .ok ls) : Promised o l ls := by
  have hc' : CommentOK l.macro? (if o.rmComments then none else l.comment) := by
    split_ifs
    · trivial
    · exact hc
  have hcm : l.macro? = none ∨ ∀ t, (if o.rmComments then none else l.comment) = some (.semicolon t) → t = [] := by
    rcases hl.comment with h | h | h
    · right; rw [if_pos h]; intro t ht; cases ht
    · exact .inl h
    · right
      intro t ht
      split_ifs at ht
      · exact h t ht
  unfold NormOpts.write at h
  rw [if_neg (by rintro ⟨h1, h2⟩; exact h2 (hfull h1))] at h
  by_cases hs : o.singles = true ∧ 1 < gs.length
  · rw [if_pos hs] at h
    cases h
    have key : ∀ g ∈ execSort gs, Promised o ⟨l.block, l.comment, none⟩ (o.writeOne [g] [] l.comment none) := by
      intro g hgm
      have hgm' := (execSort_stable gs).1.mem_iff.1 hgm
      refine writeOne_promised o hr [g] [] l.comment none (fun _ => rfl) (by simp) ?_ ?_ (by simp [Ordered])
        ?_ (by simp) (by simp) ?_ (single_conflict g) (commentOK_none hc' hcm) (by simp) (.inl rfl) l.block
      · intro x hx; rw [List.mem_singleton] at hx; subst hx; exact hcl x hgm'
      · intro x hx; rw [List.mem_singleton] at hx; subst hx; exact hg x hgm'
      · intro x hx; rw [List.mem_singleton] at hx; subst hx; exact hws x hgm'
      · intro w hw
        refine hl.plain w (List.mem_append.2 (.inl (List.mem_flatMap.2 ⟨g, hgm', ?_⟩)))
        simpa using hw
    refine ⟨?_, ?_, ?_⟩
    · intro t ht
      obtain ⟨g, hgm, ht⟩ := List.mem_flatMap.1 ht
      obtain ⟨l', h1, h2, h3, h4, h5, h6, h7⟩ := (key g hgm).lines t ht
      exact ⟨l', h1, h2, h3, h4, h5, h6, .inl (by simpa using h7)⟩
    · intro h1 h2
      have hlen : 0 < (execSort gs).length := by
        rw [(execSort_stable gs).1.length_eq]; omega
      obtain ⟨g, rest, hgr⟩ := List.exists_cons_of_length_pos hlen
      have := (key g (by rw [hgr]; simp)).comment h1 h2
      rw [hgr, List.flatMap_cons]
      simp [this]
    · intro h1; rw [h1] at hs; simp at hs
  · rw [if_neg hs] at h
    cases h
    refine writeOne_promised o hr gs mp l.comment l.macro? hfull hs hcl hg ho hws hm hl.later hl.plain ?_ hc' hmac hcm
      l.block
    by_cases h1 : o.singles = true
    · refine short_conflict gs ?_
      by_contra h2
      exact hs ⟨h1, by omega⟩
    · exact hl.conflict (by simpa using h1)

/-- The lines printed for one. -/
theorem line_promised (o : NormOpts) (hr : o.rmGcodes = []) (he : o.cannedExpand = false) (hi : o.rmInvalid = false)
    (fuel : ℕ) {m : Machine} (hok : ModeOK m.mode) (hn : ModeAll Named m.mode)
    (t : List Char) (ht : LineTidy o m t) (hd : (o.line fuel m t).status = .done) :
    ∃ l, Line.ofText t = .ok l ∧ Promised o l (o.line fuel m t).out ∧ m.processStr t = ((o.line fuel m t).m, none) := by
  unfold NormOpts.line at hd ⊢
  unfold processStr
  cases hl : Line.ofText t with
  | error e => rw [hl] at hd; cases hd
  | ok l =>
    rw [hl] at hd
    simp only [hi, Bool.false_eq_true, if_false] at hd ⊢
    cases hgs : m.blockModalGcodes l.block with
    | error e => rw [hgs] at hd; cases hd
    | ok gs =>
      rw [hgs] at hd
      simp only [he, Bool.false_and, Bool.false_eq_true, if_false] at hd ⊢
      obtain ⟨e1, e2, e3, e4, e5, e6⟩ := effective_ok hl hok hn hgs
      obtain ⟨c1, c2⟩ := line_comment_ok hl
      have hb := line_block_ok hl
      have htd := ht l gs hl hgs
      unfold NormOpts.plainLine at hd ⊢
      obtain ⟨d1, d2, d3, d4⟩ := done_andThen hd
      obtain ⟨ls, hw⟩ : ∃ ls, (if o.full = true then o.write gs [] l.comment l.macro?
          else o.write l.block.gcodes l.block.modalParams l.comment l.macro?) = .ok ls := by
        revert d1
        generalize (if o.full = true then o.write gs [] l.comment l.macro?
          else o.write l.block.gcodes l.block.modalParams l.comment l.macro?) = r
        intro d1
        cases r with
        | error e => cases d1
        | ok ls => exact ⟨ls, rfl⟩
      have hpr : m.processBlock l.block = ((m.processBlock l.block).1, none) ∧
          (NormRes.ofM (m.processBlock l.block)).m = (m.processBlock l.block).1 ∧
          (NormRes.ofM (m.processBlock l.block)).out = [] := by
        rw [hw] at d2
        have d2 : (NormRes.ofM (m.processBlock l.block)).status = .done := d2
        revert d2
        generalize m.processBlock l.block = r
        obtain ⟨m', e⟩ := r
        cases e with
        | none => exact fun _ => ⟨rfl, rfl, rfl⟩
        | some e => intro h; cases h
      refine ⟨l, rfl, ?_, ?_⟩
      · rw [d3, hw]
        simp only [NormRes.put]
        rw [hpr.2.2, List.append_nil]
        by_cases hf : o.full = true
        · rw [if_pos hf] at htd hw
          exact write_promised o hr l gs [] htd (fun _ => rfl) e1 e2 e3 e4 (by simp) c1 c2 ls hw
        · rw [if_neg hf] at htd hw
          exact write_promised o hr l _ _ htd (fun h => absurd h hf) hb.cls hb.ok hb.ordered hb.ws hb.unused c1 c2 ls hw
      · rw [d4, hw]
        simp only [NormRes.put]
        rw [hpr.2.1]
        exact hpr.1

/-! ## C82 -/

/-- **C82**, partial (missing: macros with `--singles`, removals of gcodes; for expansions see `C82_expanded` and
`C82_replaced`): without expansions and removals of gcodes, for tidy lines (as in C66): when the script has read
the lines, what is printed is, in order, for every line what the options promise. -/
theorem C82_lines_partial (o : NormOpts) (hr : o.rmGcodes = []) (he : o.cannedExpand = false) (hi : o.rmInvalid = false)
    (fuel : ℕ) (ts : List (List Char)) (m : Machine) (hwf : m.WF) (hok : ModeOK m.mode) (hn : ModeAll Named m.mode)
    (htd : LinesTidy o m ts) (hd : (o.loop fuel m ts).status = .done) :
    ∃ groups : List (List (List Char)), (o.loop fuel m ts).out = groups.flatten ∧
      List.Forall₂ (fun t ls => ∃ l, Line.ofText t = .ok l ∧ Promised o l ls) ts groups := by
  induction ts generalizing m with
  | nil => exact ⟨[], rfl, .nil⟩
  | cons t ts ih =>
    unfold NormOpts.loop at hd ⊢
    obtain ⟨d1, d2, d3, -⟩ := done_andThen hd
    obtain ⟨l, h1, h2, h3⟩ := line_promised o hr he hi fuel hok hn t htd.1 d1
    have hcall : (Call.str t).OK m.axes m.absPos.unit := trivial
    have hm' : ((Call.str t).run m).1 = (o.line fuel m t).m := by simp [Call.run, h3]
    have w1 := (path_call m hwf (.str t) hcall).wf hwf
    have w2 := kept_ok.call m hwf (.str t) hcall trivial hok
    have w3 := kept_named.call m hwf (.str t) hcall trivial hn
    rw [hm'] at w1 w2 w3
    have htd2 := htd.2
    rw [h3] at htd2
    obtain ⟨groups, g1, g2⟩ := ih _ w1 w2 w3 htd2 d2
    refine ⟨(o.line fuel m t).out :: groups, ?_, .cons ⟨l, h1, h2⟩ g2⟩
    rw [d3, g1]; rfl

/-! ## Every program -/

/-- No empty line. -/
def NoEmpty (r : NormRes) : Prop := [] ∉ r.out

theorem NoEmpty.andThen {r : NormRes} {f : Machine → NormRes} (h : NoEmpty r) (hf : ∀ m, NoEmpty (f m)) :
    NoEmpty (r.andThen f) := by
  unfold NormRes.andThen NoEmpty
  split
  · simp only [List.mem_append, not_or]; exact ⟨h, hf r.m⟩
  · exact h

theorem noEmpty_writeOne (o : NormOpts) (hb : o.rmBlanks = true) (gs : List GCode) (mp : List Word)
    (c : Option Comment) (mac : Option (List Char)) : [] ∉ o.writeOne gs mp c mac := by
  unfold NormOpts.writeOne
  by_cases h : o.lineText gs mp c mac = []
  · rw [if_pos ⟨h, hb⟩]; simp
  · rw [if_neg (fun h2 => h h2.1)]
    simpa using h

theorem noEmpty_put (o : NormOpts) (hb : o.rmBlanks = true) (m : Machine) (gs : List GCode) (mp : List Word)
    (c : Option Comment) (mac : Option (List Char)) : NoEmpty (NormRes.put m (o.write gs mp c mac)) := by
  unfold NormOpts.write
  split
  · simp [NormRes.put, NoEmpty]
  · split
    · simp only [NormRes.put, NoEmpty, List.mem_flatMap, not_exists, not_and]
      exact fun g _ => noEmpty_writeOne o hb _ _ _ _
    · exact noEmpty_writeOne o hb _ _ _ _

theorem noEmpty_nil (m : Machine) (s : Status) : NoEmpty ⟨[], m, s⟩ := by simp [NoEmpty]

theorem noEmpty_ofM (r : MRes) : NoEmpty (.ofM r) := by
  obtain ⟨m, _ | e⟩ := r <;> exact noEmpty_nil _ _

theorem noEmpty_putAll (o : NormOpts) (hb : o.rmBlanks = true) (gs : List GCode) (s : Status) :
    ∀ m, NoEmpty (o.putAll m gs s) := by
  induction gs with
  | nil => exact fun m => noEmpty_nil m s
  | cons g gs ih => exact fun m => (noEmpty_put o hb m _ _ _ _).andThen ih

theorem noEmpty_putProcess (o : NormOpts) (hb : o.rmBlanks = true) (m : Machine) (gs : List GCode) :
    NoEmpty (o.putProcess m gs) := by
  unfold NormOpts.putProcess
  split
  · exact noEmpty_nil _ _
  · exact (noEmpty_put o hb m _ _ _ _).andThen (fun m => noEmpty_ofM _)

theorem noEmpty_line (o : NormOpts) (hb : o.rmBlanks = true) (fuel : ℕ) (m : Machine) (t : List Char) :
    NoEmpty (o.line fuel m t) := by
  unfold NormOpts.line
  split
  · exact noEmpty_nil _ _
  · split
    · exact noEmpty_nil _ _
    · split
      · exact noEmpty_nil _ _
      · split
        · unfold NormOpts.expandLine
          split
          · refine (noEmpty_putProcess o hb _ _).andThen fun m => ?_
            refine (noEmpty_put o hb m _ _ _ _).andThen fun m => ?_
            refine NoEmpty.andThen ?_ fun m => ?_
            · unfold NormOpts.putExpansion
              split
              · exact noEmpty_nil _ _
              · exact noEmpty_putAll o hb _ _ _
            · refine (noEmpty_ofM _).andThen fun m => ?_
              refine (noEmpty_putProcess o hb _ _).andThen fun m => ?_
              split
              · exact noEmpty_nil _ _
              · exact noEmpty_put o hb m _ _ _ _
          · exact noEmpty_nil _ _
        · unfold NormOpts.plainLine
          refine NoEmpty.andThen ?_ (fun m => noEmpty_ofM _)
          split
          · exact noEmpty_put o hb m _ _ _ _
          · exact noEmpty_put o hb m _ _ _ _

/-- **C82**: with `--rm_blanks` no empty line is printed, whatever the program and the other options, also when
the script ends with an exception. -/
theorem C82_no_blank (o : NormOpts) (hb : o.rmBlanks = true) (fuel : ℕ) (md : Mode) (ts : List (List Char)) :
    [] ∉ (o.run fuel md ts).out := by
  have hloop : ∀ (ts : List (List Char)) (m : Machine), NoEmpty (o.loop fuel m ts) := by
    intro ts
    induction ts with
    | nil => exact fun m => noEmpty_nil _ _
    | cons t ts ih => exact fun m => (noEmpty_line o hb fuel m t).andThen ih
  refine (hloop ts _).andThen fun m => ?_
  unfold NormOpts.finish
  refine NoEmpty.andThen (NoEmpty.andThen (NoEmpty.andThen (NoEmpty.andThen ?_ fun m => ?_) fun m => ?_) fun m => ?_)
    fun m => ?_
  · unfold NormOpts.finishComment
    split
    · exact noEmpty_put o hb m _ _ _ _
    · exact noEmpty_nil _ _
  · unfold NormOpts.finishAbsolute
    split <;> split
    · exact noEmpty_put o hb m _ _ _ _
    · exact noEmpty_nil _ _
    · exact noEmpty_put o hb m _ _ _ _
    · exact noEmpty_nil _ _
  · unfold NormOpts.finishSpindle
    split
    · exact noEmpty_put o hb m _ _ _ _
    · exact noEmpty_nil _ _
  · unfold NormOpts.finishXY
    split
    · split
      · exact noEmpty_nil _ _
      · exact (noEmpty_put o hb m _ _ _ _).andThen (fun m => noEmpty_put o hb m _ _ _ _)
    · exact noEmpty_nil _ _
  · unfold NormOpts.finishZ
    split
    · exact noEmpty_put o hb m _ _ _ _
    · exact noEmpty_nil _ _

/-! ## Where it does not hold -/

/-- **C82**, disagreement: a macro is lost when `--singles` puts the gcodes of its line on several lines, and
when a cycle of its line is expanded. -/
theorem C82_macro_refuted :
    (({ singles := true } : NormOpts).loop 0 newNull (["G90 G17 %macro%"].map String.toList)).out.map String.ofList =
      ["G17", "G90"] ∧
    (({ cannedExpand := true, cannedCodes := [⟨'G', .num 81⟩] } : NormOpts).loop 20 newNull
      (["G17 G90", "G81 X0 Y0 Z-1 R2 %macro%"].map String.toList)).status = .done ∧
    ∀ t ∈ (({ cannedExpand := true, cannedCodes := [⟨'G', .num 81⟩] } : NormOpts).loop 20 newNull
      (["G17 G90", "G81 X0 Y0 Z-1 R2 %macro%"].map String.toList)).out, '%' ∉ t := by
  refine ⟨?_, ?_, ?_⟩ <;> decide +kernel

/-- A comment is repeated on each of the lines that `--singles` makes. -/
example : (({ singles := true } : NormOpts).loop 0 newNull (["G90 G17 (setup)"].map String.toList)).out.map String.ofList =
    ["G17 (setup)", "G90 (setup)"] := by decide +kernel

/-- Non-trivial case for `C82_lines_partial`: the sample program of C66 (tidy, see there) and its printed lines. -/
example : LinesTidy { full := true, singles := true, rmComments := true, rmBlanks := true } newNull normSample ∧
    (({ full := true, singles := true, rmComments := true, rmBlanks := true } : NormOpts).loop 0 newNull
      normSample).status = .done :=
  ⟨linesTidyB_sound _ (by decide +kernel), by decide +kernel⟩

end Pygcode
