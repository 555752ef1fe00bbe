import Verif.Model.Norm
import Verif.Lemmas.Reread

/-!
# Reading the lines printed by `pygcode-norm`
-/

namespace Pygcode
open Props Machine Spec

/-- Removing the blanks from printed words. -/
theorem squeeze_words (ws : List Word) (hw : ∀ w ∈ ws, PlainWord w) :
    (joinWith [' '] (ws.map Word.str)).filter (fun x => !isSpace x) = (ws.map Word.str).flatten := by
  have key : ∀ w ∈ ws, w.str.filter (fun x => !isSpace x) = w.str := by
    intro w h
    rw [List.filter_eq_self]
    intro x hx
    rw [plain_str_no_blank (hw w h) x hx]; rfl
  have hsp : [' '].filter (fun x => !isSpace x) = [] := by decide
  induction ws with
  | nil => rfl
  | cons w ws ih =>
    cases ws with
    | nil =>
      simp only [List.map_cons, List.map_nil, joinWith, List.flatten_cons, List.flatten_nil, List.append_nil]
      exact key w (by simp)
    | cons v ws =>
      have ih' := ih (fun x hx => hw x (List.mem_cons_of_mem _ hx)) (fun x hx => key x (List.mem_cons_of_mem _ hx))
      rw [List.map_cons, joinWith_cons _ _ (by simp), List.filter_append, List.flatten_cons, key w (by simp)]
      rw [show ' ' :: joinWith [' '] ((v :: ws).map Word.str) = [' '] ++ joinWith [' '] ((v :: ws).map Word.str) from rfl,
        List.filter_append, hsp, ih', List.nil_append]

theorem collapse_flat {a : List Char} (ha : ∀ c ∈ a, isSpace c = false) : collapse a = a := by
  have := collapse_app ha []
  simpa [collapse] using this

/-- Gcodes and left-over words in an order that can stand on one line are read back from what
`pygcode-norm` prints for them, with the comment (unless removed) and the macro. -/
theorem lineText_reread (o : NormOpts) (hr : o.rmGcodes = []) (gs : List GCode) (mp : List Word)
    (c : Option Comment) (mac : Option (List Char))
    (hcl : ∀ g ∈ gs, wordClass g.word = some g.cls)
    (hg : ∀ g ∈ gs, GOK g) (ho : Ordered gs) (hws : ∀ g ∈ gs, g.ws = false)
    (hm : ∀ w ∈ mp, wordClass w = none) (hd : ∀ g ∈ gs, ∀ w ∈ mp, w.letter ∉ g.cls.params)
    (hp : ∀ w ∈ gs.flatMap (fun g => g.word :: g.params) ++ mp, PlainWord w)
    (hn : ¬ Conflict gs)
    (hc : CommentOK mac (if o.rmComments then none else c))
    (hmac : ∀ m', mac = some m' → ∃ r, m' = '%' :: r ∧ '\n' ∉ r)
    (hcm : mac = none ∨ ∀ t, (if o.rmComments then none else c) = some (.semicolon t) → t = []) :
    Line.ofText (o.lineText gs mp c mac) =
      .ok ⟨⟨printedWords gs mp, gs.map canon, mp⟩, if o.rmComments then none else c, mac⟩ := by
  have hpr : ∀ w ∈ printedWords gs mp, PlainWord w :=
    fun w hw => hp w ((printed_perm _ _).mem_iff.1 hw)
  have hstr := block_str_join gs mp hws
  have h2 := regroup_canon gs mp hcl hg ho hws hm hd
  unfold NormOpts.lineText
  simp only [hr, if_true]
  generalize (if o.rmComments then none else c) = c at hc hcm ⊢
  rw [hstr]
  have hS : ∃ S, (if o.rmWhitespace = true then
        (joinWith [' '] ((printedWords gs mp).map Word.str)).filter (fun x => !isSpace x)
      else joinWith [' '] ((printedWords gs mp).map Word.str)) = S ∧ NoSpecial S ∧
      (∀ x ∈ S.getLast?, isSpace x = false) ∧
      ∀ w, Blank w → text2words (cleanText (S ++ w)) = .ok (printedWords gs mp) := by
    by_cases hw : o.rmWhitespace = true
    · rw [if_pos hw, squeeze_words _ hpr]
      have hnb : ∀ x ∈ ((printedWords gs mp).map Word.str).flatten, isSpace x = false := by
        intro x hx
        obtain ⟨s, hs, hx⟩ := List.mem_flatten.1 hx
        obtain ⟨w, hw, rfl⟩ := List.mem_map.1 hs
        exact plain_str_no_blank (hpr w hw) x hx
      have hsub : ∀ x ∈ ((printedWords gs mp).map Word.str).flatten,
          x ∈ joinWith [' '] ((printedWords gs mp).map Word.str) := by
        intro x hx
        rw [← squeeze_words _ hpr] at hx
        exact List.mem_of_mem_filter hx
      obtain ⟨n1, n2, n3, n4⟩ := plain_noSpecial _ hpr
      refine ⟨_, rfl, ⟨fun h => n1 (hsub _ h), fun h => n2 (hsub _ h), fun h => n3 (hsub _ h), fun h => n4 (hsub _ h)⟩,
        fun x hx => hnb x (List.mem_of_getLast? hx), ?_⟩
      intro w hwb
      have := strip_eval (a := []) (b := w) (s := ((printedWords gs mp).map Word.str).flatten) blank_nil hwb
        (fun x hx => hnb x (List.mem_of_head? hx)) (fun x hx => hnb x (List.mem_of_getLast? hx))
      unfold cleanText
      rw [List.nil_append] at this
      rw [this, collapse_flat hnb]
      exact (C03_remove_whitespace _ (fun w hw => (hpr w hw).1) (fun w hw => (hpr w hw).2.1)).2
    · rw [if_neg hw]
      refine ⟨_, rfl, plain_noSpecial _ hpr, ?_, ?_⟩
      · apply join_last
        intro s hs
        obtain ⟨w, hwm, rfl⟩ := List.mem_map.1 hs
        exact ⟨by simp [Word.str], plain_str_no_blank (hpr w hwm)⟩
      · intro w hwb
        have := cleanText_words _ hpr [] w blank_nil hwb
        rw [List.nil_append] at this
        rw [this]
        exact (C03_remove_whitespace _ (fun w hw => (hpr w hw).1) (fun w hw => (hpr w hw).2.1)).1
  obtain ⟨S, hSe, hsp, hlast, htw⟩ := hS
  rw [hSe]
  have hpre : (if S = [] then [] else [S]) = [S] ∨ ((if S = [] then [] else [S]) = [] ∧ S = []) := by
    by_cases h : S = []
    · exact .inr ⟨if_pos h, h⟩
    · exact .inl (if_neg h)
  obtain ⟨w, hparts, hwb⟩ := parts_printed S _ c mac hsp hlast hpre hc hmac hcm
  unfold Line.ofText
  rw [hparts]
  simp only
  have := (C19_verify _ _ _ _ (htw w hwb) h2).2.1 (fun hcf => hn (conflict_congr (by rw [List.map_map]; rfl) hcf))
  rw [this]

/-- The comment and the macro of a line that was read. -/
theorem line_comment_ok {t : List Char} {l : Line} (h : Line.ofText t = .ok l) :
    CommentOK l.macro? l.comment ∧ ∀ m', l.macro? = some m' → ∃ r, m' = '%' :: r ∧ '\n' ∉ r := by
  unfold Line.ofText at h
  cases h1 : Line.parts t with
  | error e => rw [h1] at h; cases h
  | ok p =>
    obtain ⟨bs, c, m⟩ := p
    rw [h1] at h
    simp only at h
    cases h2 : Block.ofText bs with
    | error e => rw [h2] at h; cases h
    | ok b =>
      rw [h2] at h
      cases h
      unfold Line.parts at h1
      cases h3 : lineSplit t with
      | none => rw [h3] at h1; cases h1
      | some q =>
        obtain ⟨bc, m'⟩ := q
        rw [h3] at h1
        cases h1
        obtain ⟨f1, f2, f3, f4⟩ := lineSplit_facts h3
        exact ⟨splitLine_comment f1 f2 f3, f4⟩

theorem line_block_ok {t : List Char} {l : Line} (h : Line.ofText t = .ok l) : BlockOK l.block := by
  unfold Line.ofText at h
  cases h1 : Line.parts t with
  | error e => rw [h1] at h; cases h
  | ok p =>
    obtain ⟨bs, c, m⟩ := p
    rw [h1] at h
    simp only at h
    cases h2 : Block.ofText bs with
    | error e => rw [h2] at h; cases h
    | ok b =>
      rw [h2] at h
      cases h
      exact block_ok h2

end Pygcode
