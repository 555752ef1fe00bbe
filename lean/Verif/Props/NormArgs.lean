import Verif.Model.NormArgs
import Verif.Props.NormExpand
import Verif.Props.NormRemove

/-!
# C79: options of `pygcode-norm` that are lists of words
-/

namespace Pygcode
open Props Machine Spec

/-! ## Specification -/

/-- `Pieces ps t`: the text is the pieces separated by commas; blanks around a comma belong to the
separator. -/
inductive Pieces : List (List Char) → List Char → Prop
  | one {p} : ',' ∉ p → Pieces [p] p
  | cons {p a b t : List Char} {ps : List (List Char)} : ',' ∉ p → (∀ x ∈ p.getLast?, isSpace x = false) → Blank a →
      Blank b → (∀ x ∈ t.head?, isSpace x = false) → Pieces ps t → Pieces (p :: ps) (p ++ a ++ ',' :: (b ++ t))

/-- The value given by a text: a number, which blanks may surround, or, for T and O, the text. -/
def ValueGiven (k : VKind) (v : List Char) (x : Val) : Prop :=
  match k with
  | .tool | .name => x = .str v
  | .posint => ∃ u r, v = u ++ r ∧ ValueText .posint u ∧ Blank r ∧ DenotesVal .posint u x
  | .flt | .code => ∃ u r, v = u ++ r ∧ ValueText .flt u ∧ Blank r ∧ DenotesVal .flt u x

/-- `WordOf p w`: the text is a letter (in either case) and a value. -/
def WordOf (p : List Char) (w : Word) : Prop :=
  ∃ c v k, p = c :: v ∧ w.letter = c.toUpper ∧ kindOf c.toUpper = some k ∧ ValueGiven k v w.val

/-! ## Pieces -/

theorem from_true (s : List Char) :
    splitCommasFrom true [] s = splitCommasFrom false [] (s.dropWhile isSpace) := by
  induction s with
  | nil => rfl
  | cons c cs ih =>
    by_cases hc : c = ','
    · subst hc
      rw [List.dropWhile_cons_of_neg (by decide)]
      simp [splitCommasFrom]
    · by_cases hb : isSpace c = true
      · rw [List.dropWhile_cons_of_pos hb, ← ih]
        simp [splitCommasFrom, hc, hb]
      · rw [List.dropWhile_cons_of_neg hb]
        simp [splitCommasFrom, hc, hb]

theorem from_app (p : List Char) (hp : ',' ∉ p) : ∀ cur r : List Char,
    splitCommasFrom false cur (p ++ r) = splitCommasFrom false (p.reverse ++ cur) r := by
  induction p with
  | nil => exact fun _ _ => rfl
  | cons c p ih =>
    intro cur r
    simp only [List.mem_cons, not_or] at hp
    rw [List.cons_append, splitCommasFrom, if_neg (Ne.symm hp.1), if_neg (by simp), ih hp.2]
    simp

theorem blank_no_comma {a : List Char} (h : Blank a) : ',' ∉ a := fun hc => absurd (h _ hc) (by decide)

theorem dropWhile_blank_app {a p : List Char} (ha : Blank a) (hp : ∀ x ∈ p.head?, isSpace x = false) :
    (a ++ p).dropWhile isSpace = p := by
  rw [List.dropWhile_append, if_pos]
  · cases p with
    | nil => rfl
    | cons c p => rw [List.dropWhile_cons_of_neg (by simp [hp c rfl])]
  · rw [List.dropWhile_eq_nil_iff.2 (fun x hx => ha x hx)]; rfl

theorem pieces_eval {ps : List (List Char)} {t : List Char} (h : Pieces ps t) : splitCommas t = ps := by
  induction h with
  | @one p hp =>
    have := from_app p hp [] []
    rw [List.append_nil] at this
    unfold splitCommas
    rw [this]
    simp [splitCommasFrom]
  | @cons p a b t ps hp hl ha hb ht _ ih =>
    unfold splitCommas at *
    have := from_app (p ++ a) (by simp [hp, blank_no_comma ha]) [] (',' :: (b ++ t))
    rw [this, splitCommasFrom, if_pos rfl, from_true, dropWhile_blank_app hb ht, ih]
    congr 1
    rw [List.append_nil, List.reverse_append, dropWhile_blank_app (fun x hx => ha x (List.mem_reverse.1 hx))
      (by rw [List.head?_reverse]; exact hl), List.reverse_reverse]

theorem dropWhile_head (l : List Char) : ∀ x ∈ (l.dropWhile isSpace).head?, isSpace x = false := by
  intro x hx
  cases h : l.dropWhile isSpace with
  | nil => rw [h] at hx; cases hx
  | cons c cs =>
    rw [h] at hx
    cases hx
    have := List.head_dropWhile_not isSpace (l := l) (by rw [h]; simp)
    simpa [h] using this

theorem pieces_from (n : ℕ) : ∀ (cur s : List Char), s.length ≤ n → ',' ∉ cur →
    Pieces (splitCommasFrom false cur s) (cur.reverse ++ s) := by
  induction n with
  | zero =>
    intro cur s hs hc
    obtain rfl := List.length_eq_zero_iff.1 (Nat.le_zero.1 hs)
    rw [List.append_nil]
    exact .one (by simpa using hc)
  | succ n ih =>
    intro cur s hs hc
    cases s with
    | nil => rw [List.append_nil]; exact .one (by simpa using hc)
    | cons c cs =>
      simp only [List.length_cons] at hs
      by_cases h : c = ','
      · subst h
        rw [splitCommasFrom, if_pos rfl, from_true]
        have h1 : cur.reverse = (cur.dropWhile isSpace).reverse ++ (cur.takeWhile isSpace).reverse := by
          rw [← List.reverse_append, List.takeWhile_append_dropWhile]
        have h2 : cs = cs.takeWhile isSpace ++ cs.dropWhile isSpace := List.takeWhile_append_dropWhile.symm
        conv_rhs => rw [h1, h2]
        refine .cons ?_ ?_ ?_ ?_ (dropWhile_head cs) ?_
        · intro hx
          exact hc (List.dropWhile_subset _ (List.mem_reverse.1 hx))
        · rw [List.getLast?_reverse]; exact dropWhile_head cur
        · exact fun x hx => List.mem_takeWhile_imp (List.mem_reverse.1 hx)
        · exact fun x hx => List.mem_takeWhile_imp hx
        · have := (List.dropWhile_sublist isSpace (l := cs)).length_le
          exact ih [] _ (by omega) (by simp)
      · rw [splitCommasFrom, if_neg h, if_neg (by simp)]
        have := ih (c :: cur) cs (by omega) (by simp [Ne.symm h, hc])
        simpa using this

theorem pieces_iff {ps : List (List Char)} {t : List Char} : Pieces ps t ↔ splitCommas t = ps := by
  refine ⟨pieces_eval, ?_⟩
  rintro rfl
  exact pieces_from t.length [] t le_rfl (by simp)

/-! ## Words -/

theorem flt_last {v : List Char} (h : ValueText .flt v) : v ≠ [] ∧ ∀ x ∈ v.getLast?, isSpace x = false := by
  obtain ⟨ws, sg, b, rfl, -, -, hb⟩ := h
  have hbn : b ≠ [] := by
    rcases hb with ⟨h, -⟩ | ⟨i, f, rfl, -⟩ <;> simp_all
  refine ⟨by simp [hbn], ?_⟩
  rw [List.getLast?_append_of_ne_nil _ hbn]
  intro x hx
  have hx := List.mem_of_getLast? hx
  rcases hb with ⟨-, h⟩ | ⟨i, f, rfl, h1, h2, -⟩
  · exact not_space_of_digit (h x hx)
  · rcases List.mem_append.1 hx with hx | hx
    · exact not_space_of_digit (h1 x hx)
    · rcases List.mem_cons.1 hx with rfl | hx
      · decide
      · exact not_space_of_digit (h2 x hx)

theorem int_last {v : List Char} (h : ValueText .posint v) : v ≠ [] ∧ ∀ x ∈ v.getLast?, isSpace x = false := by
  obtain ⟨ws, i, rfl, -, hne, hi⟩ := h
  refine ⟨by simp [hne], ?_⟩
  rw [List.getLast?_append_of_ne_nil _ hne]
  exact fun x hx => not_space_of_digit (hi x (List.mem_of_getLast? hx))

theorem longest_blank {k : VKind} (hk : k = .flt ∨ k = .posint) {u r : List Char} (hu : ValueText k u) (hr : Blank r) :
    LongestValue k (u ++ r) u r := by
  refine ⟨rfl, hu, ?_, ?_⟩
  · intro v' r' he hv'
    by_contra hlt
    push Not at hlt
    have hl : v' ≠ [] ∧ ∀ x ∈ v'.getLast?, isSpace x = false := by
      rcases hk with rfl | rfl
      · exact flt_last hv'
      · exact int_last hv'
    obtain ⟨d, hd, hd'⟩ : ∃ d, v' = u ++ d ∧ r = d ++ r' := by
      rcases List.append_eq_append_iff.1 he with ⟨d, h1, h2⟩ | ⟨d, h1, h2⟩
      · exact ⟨d, h1, h2⟩
      · rw [h1] at hlt; simp at hlt
    have hdn : d ≠ [] := by rintro rfl; rw [hd] at hlt; simp at hlt
    have h1 := hl.2 (d.getLast hdn) (by rw [hd, List.getLast?_append_of_ne_nil _ hdn, List.getLast?_eq_some_getLast hdn]; rfl)
    rw [hr _ (by rw [hd']; simp [List.getLast_mem])] at h1
    cases h1
  · rintro rfl
    rcases hk with hk | hk <;> cases hk

theorem number_iff {k : VKind} (hk : k = .flt ∨ k = .posint) (v : List Char) (x : Val) :
    (match matchValue k v with
      | some (u, r) => if r.all isSpace then (.ok (.num (numText u)) : Except Err Val) else .error .value
      | none => .error .value) = .ok x ↔
      ∃ u r, v = u ++ r ∧ ValueText k u ∧ Blank r ∧ DenotesVal k u x := by
  have hmk : ∀ u, mkVal k u = .num (numText u) := by
    intro u; rcases hk with rfl | rfl <;> rfl
  constructor
  · intro h
    cases hm : matchValue k v with
    | none => rw [hm] at h; cases h
    | some p =>
      obtain ⟨u, r⟩ := p
      rw [hm] at h
      simp only at h
      split_ifs at h with hr
      cases h
      obtain ⟨h1, h2, -, -⟩ := matchValue_iff.1 hm
      exact ⟨u, r, h1, h2, fun c hc => List.all_eq_true.1 hr c hc, (denotesVal_iff h2).2 (hmk u).symm⟩
  · rintro ⟨u, r, rfl, hu, hr, hx⟩
    rw [matchValue_iff.2 (longest_blank hk hu hr)]
    simp only
    rw [if_pos (List.all_eq_true.2 fun c hc => hr c hc), (denotesVal_iff hu).1 hx, hmk]

theorem wordOf_iff (p : List Char) (w : Word) : Word.ofText p = .ok w ↔ WordOf p w := by
  cases p with
  | nil =>
    constructor
    · intro h; cases h
    · rintro ⟨c, v, k, h, -⟩; cases h
  | cons c v =>
    unfold Word.ofText
    simp only
    rw [wordKind_eq_kindOf]
    cases hk : kindOf c.toUpper with
    | none =>
      constructor
      · intro h; cases h
      · rintro ⟨c', v', k', he, -, hk', -⟩
        cases he
        rw [hk] at hk'; cases hk'
    | some k =>
      simp only
      have key : ∀ x, valueOfText k v = .ok x ↔ ValueGiven k v x := by
        intro x
        cases k with
        | flt => exact number_iff (.inl rfl) v x
        | code => exact number_iff (.inl rfl) v x
        | posint => exact number_iff (.inr rfl) v x
        | tool => simp [valueOfText, ValueGiven, eq_comm]
        | name => simp [valueOfText, ValueGiven, eq_comm]
      constructor
      · intro h
        cases hv : valueOfText k v with
        | error e => rw [hv] at h; cases h
        | ok x =>
          rw [hv] at h
          cases h
          exact ⟨c, v, k, rfl, rfl, hk, (key x).1 hv⟩
      · rintro ⟨c', v', k', he, hl, hk', hv⟩
        cases he
        rw [hk] at hk'
        cases hk'
        rw [(key w.val).2 hv]
        obtain ⟨l, x⟩ := w
        simp only at hl
        rw [hl]

theorem mapM_ok_iff {α β : Type} (f : α → Except Err β) (l : List α) (r : List β) :
    l.mapM f = .ok r ↔ List.Forall₂ (fun a b => f a = .ok b) l r := by
  induction l generalizing r with
  | nil =>
    rw [List.mapM_nil]
    constructor
    · intro h; cases h; exact .nil
    · intro h; cases h; rfl
  | cons a l ih =>
    rw [List.mapM_cons]
    constructor
    · intro h
      cases ha : f a with
      | error e => rw [ha] at h; cases h
      | ok b =>
        rw [ha] at h
        cases hl : l.mapM f with
        | error e => rw [hl] at h; cases h
        | ok bs =>
          rw [hl] at h
          cases h
          exact .cons ha ((ih bs).1 hl)
    · intro h
      cases h with
      | cons h1 h2 => rw [h1, (ih _).2 h2]; rfl

/-- **C79**: the option is accepted exactly if it is pieces separated by commas (with any blanks around
the commas), each of which is a word, and these are the words. -/
theorem C79_list (t : List Char) (ws : List Word) :
    wordList t = .ok ws ↔ ∃ ps, Pieces ps t ∧ List.Forall₂ WordOf ps ws := by
  unfold wordList
  rw [mapM_ok_iff]
  constructor
  · intro h
    exact ⟨_, pieces_iff.2 rfl, h.imp fun _ _ => (wordOf_iff _ _).1⟩
  · rintro ⟨ps, h1, h2⟩
    rw [pieces_iff.1 h1]
    exact h2.imp fun _ _ => (wordOf_iff _ _).2

/-! ## Printed words -/

/-- The printed words, separated by commas, with any blanks around these. -/
inductive CommaWords : List Word → List Char → Prop
  | one (w : Word) : CommaWords [w] w.str
  | cons (w : Word) {a b t : List Char} {ws : List Word} : Blank a → Blank b → CommaWords ws t →
      CommaWords (w :: ws) (w.str ++ a ++ ',' :: (b ++ t))

theorem flt_of_code {v : List Char} (h : ValueText .code v) : ValueText .flt v := by
  obtain ⟨ws, i, f, rfl, hw, hne, hi, hf⟩ := h
  refine ⟨ws, [], i ++ f, by simp, hw, .inl rfl, ?_⟩
  rcases hf with rfl | ⟨c, rfl, hc⟩
  · exact .inl ⟨by simp [hne], by simpa using hi⟩
  · exact .inr ⟨i, [c], by simp, hi, by simpa [Digits] using hc, .inl hne⟩

theorem printed_word {w : Word} (h : PlainWord w) : WordOf w.str w := by
  obtain ⟨k, h1, h2, h3⟩ := printable_match h.1 (r := []) (by simp [NoExtend]) (fun _ => rfl)
  rw [List.append_nil] at h2
  have hv := (matchValue_iff.1 h2).2.1
  have hup : w.letter.toUpper = w.letter := (printable_letter h.1).2
  refine ⟨w.letter, w.valueStr, k, rfl, hup.symm, by rw [hup, ← wordKind_eq_kindOf, h1], ?_⟩
  cases k with
  | tool => exact h3.symm
  | name => exact h3.symm
  | posint => exact ⟨_, [], by simp, hv, blank_nil, (denotesVal_iff hv).2 h3.symm⟩
  | flt => exact ⟨_, [], by simp, hv, blank_nil, (denotesVal_iff hv).2 h3.symm⟩
  | code => exact ⟨_, [], by simp, flt_of_code hv, blank_nil, (denotesVal_iff (flt_of_code hv)).2 h3.symm⟩

theorem printed_no_comma {w : Word} (h : PlainWord w) : ',' ∉ w.str := by
  intro hc
  rcases plain_str_chars h _ hc with h | h | h | h
  · revert h; unfold IsLetter; decide
  · revert h; decide
  · revert h; decide
  · revert h; decide

/-- **C79**: printed words separated by commas, with any blanks around them, are read as these words. -/
theorem C79_printed (ws : List Word) (t : List Char) (h : CommaWords ws t) (hp : ∀ w ∈ ws, PlainWord w) :
    wordList t = .ok ws := by
  rw [C79_list]
  refine ⟨ws.map Word.str, ?_, ?_⟩
  · induction h with
    | one w => exact .one (printed_no_comma (hp w (by simp)))
    | @cons w a b t ws ha hb ht ih =>
      refine .cons (printed_no_comma (hp w (by simp))) ?_ ha hb ?_ (ih fun x hx => hp x (by simp [hx]))
      · exact fun x hx => plain_str_no_blank (hp w (by simp)) x (List.mem_of_getLast? hx)
      · intro x hx
        have hh : ∃ v ∈ ws, x ∈ v.str := by
          cases ht with
          | one v => exact ⟨v, by simp, List.mem_of_head? hx⟩
          | cons v _ _ _ => exact ⟨v, by simp, List.mem_of_head? (by simpa [Word.str] using hx)⟩
        obtain ⟨v, hv, hx⟩ := hh
        exact plain_str_no_blank (hp v (by simp [hv])) x hx
  · rw [List.forall₂_map_left_iff]
    exact List.forall₂_same.2 fun w hw => printed_word (hp w hw)

/-! ## The default -/

/-- **C79**: the default of `--canned_codes` is accepted, and a gcode is listed there exactly if it is a
canned cycle. -/
theorem C79_default : ∃ ds, wordList defaultCanned = .ok ds ∧
    ∀ w c, wordClass w = some c → (w ∈ ds ↔ c.isSub .cannedCycle = true) := by
  refine ⟨[73, 76, 81, 82, 83, 85, 89].map fun q : ℚ => ⟨'G', .num q⟩, by decide +kernel, ?_⟩
  intro w c hc
  obtain ⟨-, hc'⟩ := (C15_lookup _ w c).1 hc
  constructor
  · intro hw
    have : ∀ w ∈ ([73, 76, 81, 82, 83, 85, 89].map fun q : ℚ => (⟨'G', .num q⟩ : Word)),
        (match wordClass w with | some c => c.isSub .cannedCycle | none => false) = true := by decide +kernel
    have := this w hw
    rw [hc] at this
    exact this
  · intro hs
    have ht := Cls.forall_of_all (p := fun c => !(c.isSub .cannedCycle) || (c.matcher.isNone &&
      match c.wordKey with
      | some k => ([73, 76, 81, 82, 83, 85, 89].map fun q : ℚ => (⟨'G', .num q⟩ : Word)).contains (keyWord k)
      | none => true)) (by decide +kernel) c
    simp only [hs, Bool.not_true, Bool.false_or, Bool.and_eq_true, Option.isNone_iff_eq_none] at ht
    rcases hc' with ⟨l, q, hk, rfl⟩ | ⟨-, f, hf, -⟩
    · rw [hk] at ht
      simpa [keyWord] using ht.2
    · rw [ht.1] at hf; cases hf

/-! ## Cases -/

example : String.ofList defaultCanned = "G73,G76,G81,G82,G83,G85,G89" := by decide +kernel

/-- Blanks around commas, capitals or not, a tool name with its blank. -/
example : wordList "G73 ,  g89.1,T 5".toList =
    .ok [⟨'G', .num 73⟩, ⟨'G', .num (891 / 10)⟩, ⟨'T', .str " 5".toList⟩] := by decide +kernel

/-- Two printed words with blanks around the comma. -/
example : CommaWords [⟨'G', .num 81⟩, ⟨'M', .num 5⟩] "G81 ,  M05".toList ∧
    wordList "G81 ,  M05".toList = .ok [⟨'G', .num 81⟩, ⟨'M', .num 5⟩] := by
  refine ⟨?_, by decide +kernel⟩
  have h : "G81 ,  M05".toList = (⟨'G', .num 81⟩ : Word).str ++ [' '] ++ ',' :: ([' ', ' '] ++ (⟨'M', .num 5⟩ : Word).str) := by
    decide +kernel
  rw [h]
  exact .cons _ (by unfold Blank; decide) (by unfold Blank; decide) (.one _)

/-- What is not a list of words: an empty piece, a blank at the very beginning, text after the number, a letter
that is not known. -/
example : wordList "G73,".toList = .error .index ∧ wordList " G73".toList = .error .key ∧
    wordList "G73 G89".toList = .error .value ∧ wordList "G73,?5".toList = .error .key ∧
    wordList [] = .error .index := by decide +kernel

end Pygcode
