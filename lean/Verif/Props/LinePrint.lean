import Verif.Props.BlockPrint

/-!
# Property C13: printed lines (`line.py`, `comment.py`)
-/

namespace Pygcode.Props
open Pygcode Pygcode.Spec

/-! ### Parts of a line -/

theorem lineSplit_tail {t : List Char} {p} (h : lineSplit t = some p) :
    (t.dropWhile (· != '\n')).all isSpace = true := by
  induction t generalizing p with
  | nil => rfl
  | cons c cs ih =>
    unfold lineSplit at h
    split_ifs at h with h1 h2 h3
    · rw [List.dropWhile_cons]
      have : (c != '\n') = true := by rw [h1.1]; decide
      rw [if_pos this]; exact h1.2
    · rw [List.all_eq_true] at h2 ⊢
      intro x hx; exact h2 x (List.dropWhile_subset _ hx)
    · rw [List.dropWhile_cons, if_pos (by simpa using h3)]
      cases hq : lineSplit cs with
      | none => rw [hq] at h; cases h
      | some q => exact ih hq

theorem lineSplit_facts {t bc : List Char} {m : Option (List Char)}
    (h : lineSplit t = some (bc, m)) :
    '%' ∉ bc ∧ '\n' ∉ bc ∧ (m = none → ∀ x ∈ bc.getLast?, isSpace x = false) ∧
      ∀ m', m = some m' → ∃ r, m' = '%' :: r ∧ '\n' ∉ r := by
  induction t generalizing bc with
  | nil => unfold lineSplit at h; cases h; simp
  | cons c cs ih =>
    unfold lineSplit at h
    split_ifs at h with h1 h2 h3
    · cases h
      refine ⟨by simp, by simp, by simp, ?_⟩
      intro m' hm; cases hm
      exact ⟨_, rfl, fun hx => by simpa using mem_takeWhile hx⟩
    · cases h; simp
    · cases hq : lineSplit cs with
      | none => rw [hq] at h; cases h
      | some q =>
        obtain ⟨b, m2⟩ := q
        rw [hq] at h
        cases h
        obtain ⟨i1, i2, i3, i4⟩ := ih hq
        have hc : c ≠ '%' := fun hc => h1 ⟨hc, lineSplit_tail hq⟩
        refine ⟨?_, ?_, ?_, i4⟩
        · simp only [List.mem_cons, not_or]; exact ⟨hc.symm, i1⟩
        · simp only [List.mem_cons, not_or]; exact ⟨Ne.symm h3, i2⟩
        · intro hm x hx
          subst hm
          cases b with
          | cons d b =>
            rw [List.getLast?_cons_cons] at hx
            exact i3 rfl x hx
          | nil =>
            simp at hx; subst hx
            -- the rest is blank, so `c` is not
            have hb : cs.all isSpace = true := by
              cases cs with
              | nil => rfl
              | cons d ds =>
                unfold lineSplit at hq
                split_ifs at hq with k1 k2 k3
                · cases hq
                · exact k2
                · cases hz : lineSplit ds with
                  | none => rw [hz] at hq; cases hq
                  | some z => rw [hz] at hq; cases hq
            by_contra hs
            apply h2
            rw [List.all_cons, hb]; simpa using hs

/-- What a comment read from a line looks like. -/
def CommentOK (m : Option (List Char)) : Option Comment → Prop
  | none => True
  | some (.semicolon t) => '%' ∉ t ∧ '\n' ∉ t ∧ (∀ x ∈ t.head?, isSpace x = false) ∧
      (m = none → ∀ x ∈ t.getLast?, isSpace x = false)
  | some (.brackets t) => '%' ∉ t ∧ '\n' ∉ t ∧ ';' ∉ t ∧ ')' ∉ t

theorem bracketed_contents {t blk : List Char} {cs : List (List Char)} (h : Bracketed t blk cs) :
    ∀ c ∈ cs, (∀ x ∈ c, x ∈ t) ∧ ')' ∉ c := by
  induction h with
  | plain _ => simp
  | @span a c rest blk cs ha hc hr ih =>
    intro d hd
    rcases List.mem_cons.1 hd with rfl | hd
    · exact ⟨fun x hx => by simp [hx], hc⟩
    · exact ⟨fun x hx => by simp [(ih d hd).1 x hx], (ih d hd).2⟩

theorem mem_joinWith {x : Char} {sep : List Char} {ss : List (List Char)} (h : x ∈ joinWith sep ss) :
    x ∈ sep ∨ ∃ s ∈ ss, x ∈ s := by
  induction ss with
  | nil => simp [joinWith] at h
  | cons s ss ih =>
    cases ss with
    | nil => simp only [joinWith] at h; exact .inr ⟨s, by simp, h⟩
    | cons s2 ss =>
      simp only [joinWith, List.mem_append] at h
      rcases h with (h | h) | h
      · exact .inr ⟨s, by simp, h⟩
      · exact .inl h
      · rcases ih h with h | ⟨y, hy, hx⟩
        · exact .inl h
        · exact .inr ⟨y, List.mem_cons_of_mem _ hy, hx⟩

theorem splitLine_comment {bc : List Char} {m : Option (List Char)} (hp : '%' ∉ bc) (hn : '\n' ∉ bc)
    (hl : m = none → ∀ x ∈ bc.getLast?, isSpace x = false) : CommentOK m (splitLine bc).2 := by
  by_cases hs : ';' ∈ bc
  · obtain ⟨a, b, rfl, ha⟩ := first_split hs
    obtain ⟨blk, t, h1, -, w, hw, hwb, hh⟩ := C10_semicolon a b ha (by
      intro h; apply hn; simp only [List.mem_append, List.mem_cons] at h ⊢; tauto)
    rw [h1]
    have hsub : ∀ x ∈ t, x ∈ a ++ ';' :: b := by
      intro x hx; rw [hw]; simp [hx]
    refine ⟨fun h => hp (hsub _ h), fun h => hn (hsub _ h), hh, ?_⟩
    intro hm x hx
    refine hl hm x ?_
    have hne : t ≠ [] := by rintro rfl; simp at hx
    rw [hw, ← List.cons_append, ← List.append_assoc, List.getLast?_append_of_ne_nil _ hne]
    exact hx
  · obtain ⟨blk, cs, hb⟩ := bracketed_exists bc
    rw [C11_brackets bc blk cs hs hn hb]
    by_cases hc : cs = []
    · simp [hc, CommentOK]
    · simp only [hc, if_false]
      have hcs := bracketed_contents hb
      have nm : ∀ z, z ∉ bc → z ≠ '.' → z ≠ ' ' → z ∉ joinWith ". ".toList cs := by
        intro z hz h1 h2 hmem
        rcases mem_joinWith hmem with h | ⟨s, hs, hx⟩
        · have : z = '.' ∨ z = ' ' := by simpa using h
          tauto
        · exact hz ((hcs s hs).1 z hx)
      refine ⟨nm _ hp (by decide) (by decide), nm _ hn (by decide) (by decide),
        nm _ hs (by decide) (by decide), ?_⟩
      intro hmem
      rcases mem_joinWith hmem with h | ⟨s, hs, hx⟩
      · exact absurd h (by decide)
      · exact (hcs s hs).2 hx

/-! ### Splitting printed lines -/

/-- Text without any of the characters that matter to the splitting. -/
def NoSpecial (s : List Char) : Prop :=
  '%' ∉ s ∧ '\n' ∉ s ∧ ';' ∉ s ∧ '(' ∉ s

theorem NoSpecial.append {a b : List Char} (ha : NoSpecial a) (hb : NoSpecial b) :
    NoSpecial (a ++ b) := by
  unfold NoSpecial at *
  simp only [List.mem_append]
  tauto

theorem split_none {s : List Char} (h : NoSpecial s) : splitLine s = (s, none) := by
  have := C11_brackets s s [] h.2.2.1 h.2.1 (.plain (by
    rintro a b rfl; exact absurd (by simp) h.2.2.2))
  simpa using this

theorem split_brackets {s c w : List Char} (h : NoSpecial s) (hw : NoSpecial w)
    (hc : '%' ∉ c ∧ '\n' ∉ c ∧ ';' ∉ c ∧ ')' ∉ c) :
    splitLine (s ++ ('(' :: (c ++ ')' :: w))) = (s ++ w, some (.brackets c)) := by
  have := C11_brackets (s ++ ('(' :: (c ++ ')' :: w))) (s ++ w) [c] ?_ ?_
    (.span h.2.2.2 hc.2.2.2 (.plain (by rintro a b rfl; exact absurd (by simp) hw.2.2.2)))
  · simpa [joinWith] using this
  · simp only [List.mem_append, List.mem_cons]
    have := h.2.2.1; have := hw.2.2.1; have := hc.2.2.1
    rintro (h | h | h | h | h) <;> first | contradiction | exact absurd h (by decide)
  · simp only [List.mem_append, List.mem_cons]
    have := h.2.1; have := hw.2.1; have := hc.2.1
    rintro (h | h | h | h | h) <;> first | contradiction | exact absurd h (by decide)

theorem lstripped_eval {w b t : List Char} (hw : Blank w) (hb : ∀ x ∈ b.head?, isSpace x = false)
    (h : LStripped (w ++ b) t) : t = b := by
  obtain ⟨w', he, hw', ht⟩ := h
  have h1 := dropWhile_app hw hb
  have h2 := dropWhile_app hw' ht
  rw [← he, h1] at h2
  exact h2.symm

theorem split_semicolon {s c w : List Char} (h : NoSpecial s) (hc : '\n' ∉ c)
    (hh : ∀ x ∈ c.head?, isSpace x = false) (hw : Blank w) (hwn : '\n' ∉ w) (hcw : w = [] ∨ c = []) :
    ∃ blk, splitLine (s ++ (';' :: ' ' :: (c ++ w))) = (blk, some (.semicolon c)) ∧
      RStripped s blk := by
  obtain ⟨blk, t, h1, hrs, h3⟩ := C10_semicolon s (' ' :: (c ++ w)) h.2.2.1 (by
    simp only [List.mem_append, List.mem_cons]
    have := h.2.1
    rintro (h | h | h | h) <;> first | contradiction | exact absurd h (by decide))
  refine ⟨blk, ?_, hrs⟩
  rw [h1]
  have hsp : Blank [' '] := by intro x hx; simp at hx; subst hx; decide
  have : t = c := by
    rcases hcw with rfl | rfl
    · rw [List.append_nil] at h3
      exact lstripped_eval hsp hh h3
    · rw [List.nil_append] at h3
      have hb2 : Blank (' ' :: w) := by
        intro x hx
        rcases List.mem_cons.1 hx with rfl | hx
        · decide
        · exact hw x hx
      have h3' : LStripped ((' ' :: w) ++ []) t := by rw [List.append_nil]; exact h3
      exact lstripped_eval hb2 (by simp) h3'
  rw [this]

theorem plain_noSpecial (ws : List Word) (h : ∀ w ∈ ws, PlainWord w) :
    NoSpecial (joinWith [' '] (ws.map Word.str)) := by
  have key : ∀ z, ¬ IsLetter z → z.isDigit = false → z ≠ '-' → z ≠ '.' → z ≠ ' ' →
      z ∉ joinWith [' '] (ws.map Word.str) := by
    intro z h1 h2 h3 h4 h5 hm
    rcases mem_joinWith hm with hz | ⟨s, hs, hz⟩
    · exact h5 (by simpa using hz)
    · obtain ⟨w, hw, rfl⟩ := List.mem_map.1 hs
      rcases plain_str_chars (h w hw) z hz with h' | h' | h' | h'
      · exact h1 h'
      · rw [h2] at h'; cases h'
      · exact h3 h'
      · exact h4 h'
  refine ⟨key _ ?_ ?_ ?_ ?_ ?_, key _ ?_ ?_ ?_ ?_ ?_, key _ ?_ ?_ ?_ ?_ ?_, key _ ?_ ?_ ?_ ?_ ?_⟩ <;>
    first | decide | (unfold IsLetter; decide)

theorem rstripped_unique {a b b' : List Char} (h : RStripped a b) (h' : RStripped a b') : b = b' := by
  have key : ∀ b, RStripped a b → b.reverse = a.reverse.dropWhile isSpace := by
    rintro b ⟨w, rfl, hw, hl⟩
    rw [List.reverse_append, dropWhile_app (fun x hx => hw x (List.mem_reverse.1 hx))
      (by intro x hx; rw [List.head?_reverse] at hx; exact hl x hx)]
  have := (key b h).trans (key b' h').symm
  exact List.reverse_injective this

theorem blank_space : Blank [' '] := by intro x hx; simp at hx; subst hx; decide

/-- Splitting what is printed for a block text, a comment and a macro. -/
theorem parts_printed (S : List Char) (pre : List (List Char)) (c : Option Comment)
    (m : Option (List Char)) (hS : NoSpecial S) (hSl : ∀ x ∈ S.getLast?, isSpace x = false)
    (hpre : pre = [S] ∨ (pre = [] ∧ S = []))
    (hc : CommentOK m c) (hm : ∀ m', m = some m' → ∃ r, m' = '%' :: r ∧ '\n' ∉ r)
    (hcm : m = none ∨ ∀ t, c = some (.semicolon t) → t = []) :
    ∃ w, Line.parts (joinWith [' '] (pre ++ (c.map Comment.str).toList ++ m.toList)) =
      .ok (S ++ w, c, m) ∧ Blank w := by
  -- the text before a comment or macro
  obtain ⟨sep, hsep, hsepb, hj0, hj1, hj2⟩ : ∃ sep : List Char, NoSpecial (S ++ sep) ∧ Blank sep ∧
      joinWith [' '] pre = S ∧ (∀ x, joinWith [' '] (pre ++ [x]) = S ++ sep ++ x) ∧
      (∀ x y, joinWith [' '] (pre ++ [x] ++ [y]) = S ++ sep ++ x ++ [' '] ++ y) := by
    rcases hpre with rfl | ⟨rfl, rfl⟩
    · refine ⟨[' '], hS.append (by unfold NoSpecial; decide), blank_space, rfl, ?_, ?_⟩
      · intro x; simp [joinWith]
      · intro x y; simp [joinWith]
    · refine ⟨[], by simpa using hS, blank_nil, rfl, ?_, ?_⟩
      · intro x; simp [joinWith]
      · intro x y; simp [joinWith]
  have hspn : NoSpecial [' '] := by unfold NoSpecial; decide
  have hsb : ∀ blk, RStripped (S ++ sep) blk → blk = S :=
    fun blk h => rstripped_unique h ⟨sep, rfl, hsepb, hSl⟩
  unfold Line.parts
  cases c with
  | none =>
    simp only [Option.map_none, Option.toList_none, List.append_nil]
    cases m with
    | none =>
      simp only [Option.toList_none, List.append_nil, hj0]
      have := C12_plain S [] hS.1 hS.2.1 blank_nil hSl
      rw [List.append_nil] at this
      rw [this]
      refine ⟨[], ?_, blank_nil⟩
      simp only [split_none hS, List.append_nil]
    | some m' =>
      obtain ⟨r, rfl, hr⟩ := hm m' rfl
      simp only [Option.toList_some, hj1]
      rw [C12_macro (S ++ sep) r hsep.1 (by
        intro h; rcases List.mem_append.1 h with h | h
        · exact hsep.2.1 h
        · exact hr h)]
      exact ⟨sep, by simp only [split_none hsep], hsepb⟩
  | some c =>
    simp only [Option.map_some, Option.toList_some]
    cases c with
    | brackets t =>
      obtain ⟨ht1, ht2, ht3, ht4⟩ := hc
      have hC : Comment.str (.brackets t) = '(' :: (t ++ [')']) := rfl
      have nm : ∀ z, z ∉ S ++ sep → z ∉ t → z ≠ '(' → z ≠ ')' → z ≠ ' ' →
          z ∉ S ++ sep ++ Comment.str (.brackets t) ++ [' '] := by
        intro z h1 h2 h3 h4 h5 h
        rw [hC] at h
        simp only [List.mem_append, List.mem_cons, List.not_mem_nil, or_false] at h h1
        tauto
      cases m with
      | none =>
        simp only [Option.toList_none, List.append_nil, hj1]
        have h1 : '%' ∉ S ++ sep ++ Comment.str (.brackets t) := fun h =>
          nm '%' hsep.1 ht1 (by decide) (by decide) (by decide) (List.mem_append.2 (.inl h))
        have h2 : '\n' ∉ S ++ sep ++ Comment.str (.brackets t) := fun h =>
          nm '\n' hsep.2.1 ht2 (by decide) (by decide) (by decide) (List.mem_append.2 (.inl h))
        have hl : ∀ x ∈ (S ++ sep ++ Comment.str (.brackets t)).getLast?, isSpace x = false := by
          intro x hx
          rw [hC, ← List.cons_append, ← List.append_assoc, List.getLast?_append_of_ne_nil _ (by simp)] at hx
          simp at hx; subst hx; decide
        have := C12_plain _ [] h1 h2 blank_nil hl
        rw [List.append_nil] at this
        rw [this]
        refine ⟨sep, ?_, hsepb⟩
        simp only
        have h3 := split_brackets (s := S ++ sep) (c := t) (w := []) hsep (by unfold NoSpecial; simp)
          ⟨ht1, ht2, ht3, ht4⟩
        rw [hC, h3, List.append_nil]
      | some m' =>
        obtain ⟨r, rfl, hr⟩ := hm m' rfl
        simp only [Option.toList_some, hj2]
        rw [C12_macro _ r (nm '%' hsep.1 ht1 (by decide) (by decide) (by decide)) (by
          intro h; rcases List.mem_append.1 h with h | h
          · exact nm '\n' hsep.2.1 ht2 (by decide) (by decide) (by decide) h
          · exact hr h)]
        refine ⟨sep ++ [' '], ?_, ?_⟩
        · simp only
          have h3 := split_brackets (s := S ++ sep) (c := t) (w := [' ']) hsep hspn
            ⟨ht1, ht2, ht3, ht4⟩
          have he : S ++ sep ++ Comment.str (.brackets t) ++ [' '] =
              S ++ sep ++ ('(' :: (t ++ ')' :: [' '])) := by rw [hC]; simp
          rw [he, h3, List.append_assoc]
        · intro x hx
          rcases List.mem_append.1 hx with h | h
          · exact hsepb x h
          · exact blank_space x h
    | semicolon t =>
      obtain ⟨ht1, ht2, ht3, ht4⟩ := hc
      have hC : Comment.str (.semicolon t) = ';' :: ' ' :: t := rfl
      have nm : ∀ z, z ∉ S ++ sep → z ∉ t → z ≠ ';' → z ≠ ' ' →
          z ∉ S ++ sep ++ Comment.str (.semicolon t) ++ [' '] := by
        intro z h1 h2 h3 h5 h
        rw [hC] at h
        simp only [List.mem_append, List.mem_cons, List.not_mem_nil, or_false] at h h1
        tauto
      have h1 : '%' ∉ S ++ sep ++ Comment.str (.semicolon t) := fun h =>
        nm '%' hsep.1 ht1 (by decide) (by decide) (List.mem_append.2 (.inl h))
      have h2 : '\n' ∉ S ++ sep ++ Comment.str (.semicolon t) := fun h =>
        nm '\n' hsep.2.1 ht2 (by decide) (by decide) (List.mem_append.2 (.inl h))
      cases m with
      | none =>
        simp only [Option.toList_none, List.append_nil, hj1]
        refine ⟨[], ?_, blank_nil⟩
        by_cases ht : t = []
        · subst ht
          have hx : S ++ sep ++ Comment.str (.semicolon []) = (S ++ sep ++ [';']) ++ [' '] := by
            rw [hC]; simp
          rw [hx] at h1 h2 ⊢
          rw [C12_plain (S ++ sep ++ [';']) [' '] (fun h => h1 (List.mem_append.2 (.inl h)))
            (fun h => h2 (List.mem_append.2 (.inl h))) blank_space (by
              intro x hx; simp at hx; subst hx; decide)]
          simp only
          obtain ⟨blk, t, h3, h4, w, h5, -, -⟩ := C10_semicolon (S ++ sep) [] hsep.2.2.1
            (by simpa using hsep.2.1)
          have ht : t = [] := (List.append_eq_nil_iff.1 h5.symm).2
          rw [show S ++ sep ++ [';'] = S ++ sep ++ ';' :: [] from rfl, h3, hsb blk h4, ht,
            List.append_nil]
        · have hl : ∀ x ∈ (S ++ sep ++ Comment.str (.semicolon t)).getLast?, isSpace x = false := by
            intro x hx
            rw [hC, show ';' :: ' ' :: t = [';', ' '] ++ t from rfl, ← List.append_assoc,
              List.getLast?_append_of_ne_nil _ ht] at hx
            exact ht4 rfl x hx
          have := C12_plain _ [] h1 h2 blank_nil hl
          rw [List.append_nil] at this
          rw [this]
          simp only
          obtain ⟨blk, h3, h4⟩ := split_semicolon (s := S ++ sep) (c := t) (w := []) hsep ht2 ht3
            blank_nil (by simp) (.inl rfl)
          rw [List.append_nil] at h3
          rw [hC, h3, hsb blk h4, List.append_nil]
      | some m' =>
        obtain ⟨r, rfl, hr⟩ := hm m' rfl
        have ht : t = [] := by
          rcases hcm with h | h
          · cases h
          · exact h t rfl
        subst ht
        simp only [Option.toList_some, hj2]
        rw [C12_macro _ r (nm '%' hsep.1 ht1 (by decide) (by decide)) (by
          intro h; rcases List.mem_append.1 h with h | h
          · exact nm '\n' hsep.2.1 ht2 (by decide) (by decide) h
          · exact hr h)]
        refine ⟨[], ?_, blank_nil⟩
        simp only
        obtain ⟨blk, h3, h4⟩ := split_semicolon (s := S ++ sep) (c := []) (w := [' ']) hsep ht2 ht3
          blank_space (by decide) (.inr rfl)
        have he : S ++ sep ++ Comment.str (.semicolon []) ++ [' '] =
            S ++ sep ++ (';' :: ' ' :: ([] ++ [' '])) := by rw [hC]; simp
        rw [he, h3, hsb blk h4, List.append_nil]

/-! ## C13 -/

/-- **C13**: a line of plain words in which no gcode accepts the letter of a left-over word, and
without a non-empty semicolon comment in front of a macro, is printed as text that reads back as a
line with the same gcodes, left-over words, comment and macro; printing it again gives the same
text. -/
theorem C13_stable (t : List Char) (l : Line) (h : Line.ofText t = .ok l)
    (hp : ∀ w ∈ l.block.words, PlainWord w)
    (hm : ∀ g ∈ l.block.gcodes, ∀ w ∈ l.block.modalParams, w.letter ∉ g.cls.params)
    (hcm : l.macro? = none ∨ ∀ c, l.comment = some (.semicolon c) → c = []) :
    ∃ l', Line.ofText l.str = .ok l' ∧
      List.Forall₂ SameGCode l.block.gcodes l'.block.gcodes ∧
      l'.block.modalParams = l.block.modalParams ∧ l'.block.words.Perm l.block.words ∧
      l'.comment = l.comment ∧ l'.macro? = l.macro? ∧ l'.str = l.str := by
  unfold Line.ofText at h
  cases h1 : Line.parts t with
  | error e => rw [h1] at h; cases h
  | ok p =>
    obtain ⟨bs, c, m⟩ := p
    rw [h1] at h
    simp only at h
    cases h2 : Block.ofText bs with
    | error e => rw [h2] at h; cases h
    | ok b =>
      rw [h2] at h
      cases h
      simp only at hp hm hcm ⊢
      have hb := block_ok h2
      -- facts about the comment and the macro
      have hcok : CommentOK m c ∧ ∀ m', m = some m' → ∃ r, m' = '%' :: r ∧ '\n' ∉ r := by
        unfold Line.parts at h1
        cases h3 : lineSplit t with
        | none => rw [h3] at h1; cases h1
        | some q =>
          obtain ⟨bc, m'⟩ := q
          rw [h3] at h1
          cases h1
          obtain ⟨f1, f2, f3, f4⟩ := lineSplit_facts h3
          exact ⟨splitLine_comment f1 f2 f3, f4⟩
      have hpr : ∀ w ∈ printedWords b.gcodes b.modalParams, PlainWord w :=
        fun w hw => hp w (hb.perm.mem_iff.1 ((printed_perm _ _).mem_iff.1 hw))
      have hstr : b.str = joinWith [' '] ((printedWords b.gcodes b.modalParams).map Word.str) :=
        block_str_join _ _ hb.ws
      have hsp : NoSpecial b.str := by rw [hstr]; exact plain_noSpecial _ hpr
      have hlast : ∀ x ∈ b.str.getLast?, isSpace x = false := by
        rw [hstr]
        apply join_last
        intro s hs
        obtain ⟨w, hwm, rfl⟩ := List.mem_map.1 hs
        exact ⟨by simp [Word.str], plain_str_no_blank (hpr w hwm)⟩
      have hpre : (if b.words = [] then [] else [b.str]) = [b.str] ∨
          ((if b.words = [] then [] else [b.str]) = [] ∧ b.str = []) := by
        by_cases hw : b.words = []
        · right
          obtain ⟨g0, m0⟩ := (block_words_nil hb).1 hw
          exact ⟨if_pos hw, by unfold Block.str; rw [g0, m0]; rfl⟩
        · left; exact if_neg hw
      obtain ⟨w, hparts, hwb⟩ := parts_printed b.str _ c m hsp hlast hpre hcok.1 hcok.2 hcm
      have hre := print_reread b.gcodes b.modalParams [] w blank_nil hwb hb.cls hb.ok hb.ordered hb.ws
        hb.unused hm (fun w hw => hp w (hb.perm.mem_iff.1 hw)) hb.noConflict
      rw [List.nil_append] at hre
      refine ⟨⟨⟨printedWords b.gcodes b.modalParams, b.gcodes.map canon, b.modalParams⟩, c, m⟩,
        ?_, ?_, rfl, (printed_perm _ _).trans hb.perm, rfl, rfl, ?_⟩
      · unfold Line.ofText Line.str
        simp only [hparts]
        unfold Block.str
        rw [hre]
      · rw [List.forall₂_map_right_iff]
        exact List.forall₂_same.2 (fun g _ => canon_same g)
      · unfold Line.str
        have hw : printedWords b.gcodes b.modalParams = [] ↔ b.words = [] := by
          have hperm := (printed_perm b.gcodes b.modalParams).trans hb.perm
          constructor
          · intro h0; rw [h0] at hperm; exact hperm.nil_eq.symm
          · intro h0; rw [h0] at hperm; exact hperm.eq_nil
        have hs : Block.str ⟨printedWords b.gcodes b.modalParams, b.gcodes.map canon, b.modalParams⟩ =
            b.str := by
          unfold Block.str
          simp only [List.map_map]
          congr 2
          exact List.map_congr_left (fun g _ => canon_str g)
        simp only [hw, hs]

example : (Line.ofText "  g1 y2 x1(in(ner) f100 (two)  %mac ro ".toList).map Line.str =
    .ok "G01 X1 Y2 F100 (in(ner. two) %mac ro ".toList := by decide +kernel
example : (Line.ofText "G1 ;  note  ".toList).map Line.str = .ok "G01 ; note".toList := by
  decide +kernel

/-- The macro condition of C13 cannot be dropped: a semicolon comment before a macro grows by a
blank with every round of printing and reading. -/
theorem C13_comment_grows : ∃ l l', Line.ofText "G1 ;foo%m".toList = .ok l ∧
    Line.ofText l.str = .ok l' ∧ l.comment = some (.semicolon "foo".toList) ∧
    l'.comment = some (.semicolon "foo ".toList) ∧ l'.str ≠ l.str :=
  ⟨⟨⟨[⟨'G', .num 1⟩], [⟨.linearMove, ⟨'G', .num 1⟩, [], false⟩], []⟩,
      some (.semicolon "foo".toList), some "%m".toList⟩,
   ⟨⟨[⟨'G', .num 1⟩], [⟨.linearMove, ⟨'G', .num 1⟩, [], false⟩], []⟩,
      some (.semicolon "foo ".toList), some "%m".toList⟩,
   by decide +kernel, by decide +kernel, rfl, rfl, by decide +kernel⟩

/-- Nor can program names be allowed: an open bracket in the name swallows the printed comment. -/
theorem C13_names_excluded : ∃ l l', Line.ofText "Oa(c)b(d".toList = .ok l ∧
    Line.ofText l.str = .ok l' ∧ l.comment = some (.brackets "c".toList) ∧
    l'.comment = some (.brackets "d (c".toList) :=
  ⟨⟨⟨[⟨'O', .str "ab(d".toList⟩], [⟨.programName, ⟨'O', .str "ab(d".toList⟩, [], false⟩], []⟩,
      some (.brackets "c".toList), none⟩,
   ⟨⟨[⟨'O', .str "ab".toList⟩], [⟨.programName, ⟨'O', .str "ab".toList⟩, [], false⟩], []⟩,
      some (.brackets "d (c".toList), none⟩,
   by decide +kernel, by decide +kernel, rfl, rfl⟩

end Pygcode.Props
