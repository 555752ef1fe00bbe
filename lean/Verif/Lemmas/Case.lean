import Verif.Lemmas.Lex
import Verif.Spec.Printing

/-! Helper lemmas: the lexer commutes with upper-casing. -/

namespace Pygcode
open Spec

theorem char_upper_cases (c : Char) : c.toUpper = c ∨ (IsLetter c ∧ IsLetter c.toUpper) := by
  by_cases h : 97 ≤ c.toNat ∧ c.toNat ≤ 122
  · right
    have key : ∀ n : Fin 123, 97 ≤ n.val → IsLetter (Char.ofNat n.val).toUpper := by
      unfold IsLetter; decide +kernel
    have := key ⟨c.toNat, by omega⟩ h.1
    simp only [Char.ofNat_toNat] at this
    exact ⟨.inr h, this⟩
  · left
    simp only [Char.toUpper]
    rw [dif_neg]
    simp only [UInt32.le_iff_toNat_le]
    exact h

theorem upper_upper (c : Char) : c.toUpper.toUpper = c.toUpper := by
  by_cases h : c.toNat < 123
  · have key : ∀ n : Fin 123, (Char.ofNat n.val).toUpper.toUpper = (Char.ofNat n.val).toUpper := by
      decide +kernel
    have := key ⟨c.toNat, h⟩
    simpa [Char.ofNat_toNat] using this
  · rcases char_upper_cases c with h' | ⟨h', -⟩
    · rw [h', h']
    · unfold IsLetter at h'; omega

/-- A character class that contains no letters is insensitive to upper-casing. -/
theorem upper_insensitive {p : Char → Bool} (hp : ∀ c, IsLetter c → p c = false) (c : Char) :
    p c.toUpper = p c := by
  rcases char_upper_cases c with h | ⟨h1, h2⟩
  · rw [h]
  · rw [hp _ h1, hp _ h2]

theorem letter_not_space {c : Char} (h : IsLetter c) : isSpace c = false := by
  by_contra hn
  exact not_letter_of_space (by simpa using hn) h

theorem letter_not_digit {c : Char} (h : IsLetter c) : c.isDigit = false := by
  by_contra hn
  simp only [Bool.not_eq_false, Char.isDigit, Bool.and_eq_true, decide_eq_true_eq,
    UInt32.le_iff_toNat_le] at hn
  have b1 : 48 ≤ c.toNat := hn.1
  have b2 : c.toNat ≤ 57 := hn.2
  unfold IsLetter at h; omega

theorem letter_ne {c d : Char} (h : IsLetter c) (hd : ¬ IsLetter d) : c ≠ d := by
  rintro rfl; exact hd h

theorem dot_not_letter : ¬ IsLetter '.' := by unfold IsLetter; decide
theorem minus_not_letter : ¬ IsLetter '-' := by unfold IsLetter; decide
theorem nl_not_letter : ¬ IsLetter '\n' := by unfold IsLetter; decide

theorem space_upper (c : Char) : isSpace c.toUpper = isSpace c :=
  upper_insensitive (fun _ h => letter_not_space h) c
theorem digit_upper (c : Char) : c.toUpper.isDigit = c.isDigit :=
  upper_insensitive (p := Char.isDigit) (fun _ h => letter_not_digit h) c

theorem eq_upper {d : Char} (hd : ¬ IsLetter d) (c : Char) : c.toUpper = d ↔ c = d := by
  have := upper_insensitive (p := fun x => x == d) (fun c h => by simp [letter_ne h hd]) c
  constructor
  · intro h; rw [h] at this; simpa using this
  · intro h; rw [h] at this ⊢; simpa using this

/-- Upper-case a text. -/
def up (s : List Char) : List Char := s.map Char.toUpper

theorem up_takeWhile {p : Char → Bool} (hp : ∀ c, p c.toUpper = p c) (s : List Char) :
    (up s).takeWhile p = up (s.takeWhile p) := by
  unfold up
  induction s with
  | nil => rfl
  | cons a s ih =>
    simp only [List.map_cons, List.takeWhile_cons, hp]
    split <;> simp_all

theorem up_dropWhile {p : Char → Bool} (hp : ∀ c, p c.toUpper = p c) (s : List Char) :
    (up s).dropWhile p = up (s.dropWhile p) := by
  unfold up
  induction s with
  | nil => rfl
  | cons a s ih =>
    simp only [List.map_cons, List.dropWhile_cons, hp]
    split <;> simp_all

theorem up_eq_nil {s : List Char} : up s = [] ↔ s = [] := by simp [up]

theorem up_append (a b : List Char) : up (a ++ b) = up a ++ up b := by simp [up]

theorem up_fixed {s : List Char} (h : ∀ c ∈ s, ¬ IsLetter c) : up s = s := by
  unfold up
  conv_rhs => rw [← List.map_id s]
  apply List.map_congr_left
  intro c hc
  rcases char_upper_cases c with h' | ⟨h', -⟩
  · exact h'
  · exact absurd h' (h c hc)

abbrev upPair : List Char × List Char → List Char × List Char := fun p => (up p.1, up p.2)

theorem matchInt_up (s : List Char) : matchInt (up s) = (matchInt s).map upPair := by
  unfold matchInt
  simp only [up_takeWhile space_upper, up_dropWhile space_upper, up_takeWhile digit_upper,
    up_dropWhile digit_upper, up_eq_nil]
  split <;> simp [upPair, up_append]

theorem dot_upper : '.'.toUpper = '.' := by decide
theorem minus_upper : '-'.toUpper = '-' := by decide

theorem matchCode_up (s : List Char) : matchCode (up s) = (matchCode s).map upPair := by
  unfold matchCode
  simp only [up_takeWhile space_upper, up_dropWhile space_upper, up_takeWhile digit_upper,
    up_dropWhile digit_upper, up_eq_nil]
  split
  · simp
  · generalize (s.dropWhile isSpace).dropWhile Char.isDigit = r
    match r with
    | [] => simp [upPair, up_append, up]
    | [a] => simp [upPair, up_append, up]
    | a :: c :: r' =>
      by_cases ha : a = '.'
      · subst ha
        simp only [up, List.map_cons, dot_upper, digit_upper]
        split <;> simp [upPair, up_append, up, dot_upper]
      · have ha' : a.toUpper ≠ '.' := fun h => ha ((eq_upper dot_not_letter a).1 h)
        simp only [up, List.map_cons]
        split
        · next h => simp at h; exact absurd h.1 ha'
        · split
          · next h => simp at h; exact absurd h.1 ha
          · simp [upPair, up]

theorem matchMinus_up (s : List Char) : matchMinus (up s) = upPair (matchMinus s) := by
  cases s with
  | nil => rfl
  | cons a s =>
    by_cases ha : a = '-'
    · subst ha; simp [matchMinus, up, minus_upper]
    · have ha' : a.toUpper ≠ '-' := fun h => ha ((eq_upper minus_not_letter a).1 h)
      unfold matchMinus up
      simp only [List.map_cons]
      split
      · next h => simp at h; exact absurd h.1 ha'
      · split
        · next h => simp at h; exact absurd h.1 ha
        · simp [up]

theorem matchFloat_up (s : List Char) : matchFloat (up s) = (matchFloat s).map upPair := by
  unfold matchFloat
  simp only [up_takeWhile space_upper, up_dropWhile space_upper, matchMinus_up]
  generalize matchMinus (s.dropWhile isSpace) = p
  obtain ⟨sg, b⟩ := p
  simp only [upPair, up_takeWhile digit_upper, up_dropWhile digit_upper, ne_eq, up_eq_nil]
  split
  · generalize b.dropWhile Char.isDigit = r
    match r with
    | [] => simp [up_append, up]
    | a :: r' =>
      by_cases ha : a = '.'
      · subst ha
        simp only [up, List.map_cons, dot_upper]
        have h1 := up_takeWhile digit_upper r'
        have h2 := up_dropWhile digit_upper r'
        simp only [up] at h1 h2
        simp [h1, h2, dot_upper, up]
      · have ha' : a.toUpper ≠ '.' := fun h => ha ((eq_upper dot_not_letter a).1 h)
        simp only [up, List.map_cons]
        split
        · next h => simp at h; exact absurd h.1 ha'
        · split
          · next h => simp at h; exact absurd h.1 ha
          · simp [up]
  · match b with
    | [] => simp [up]
    | a :: r' =>
      by_cases ha : a = '.'
      · subst ha
        simp only [up, List.map_cons, dot_upper]
        have h1 := up_takeWhile digit_upper r'
        have h2 := up_dropWhile digit_upper r'
        simp only [up] at h1 h2
        simp only [h1, h2, List.map_eq_nil_iff]
        split <;> simp [dot_upper, up]
      · have ha' : a.toUpper ≠ '.' := fun h => ha ((eq_upper dot_not_letter a).1 h)
        simp only [up, List.map_cons]
        split
        · next h => simp at h; exact absurd h.1 ha'
        · split
          · next h => simp at h; exact absurd h.1 ha
          · simp [up]

theorem nl_upper (c : Char) : (fun x : Char => x != '\n') c.toUpper = (fun x : Char => x != '\n') c := by
  have := eq_upper nl_not_letter c
  by_cases h : c = '\n'
  · subst h; decide
  · have h' : c.toUpper ≠ '\n' := fun h'' => h (this.1 h'')
    rw [Bool.eq_iff_iff]; simp [h, h']

theorem matchName_up (s : List Char) : matchName (up s) = (matchName s).map upPair := by
  unfold matchName
  simp only [up_takeWhile (p := fun x : Char => x != '\n') nl_upper, up_dropWhile (p := fun x : Char => x != '\n') nl_upper, up_eq_nil]
  have : up (s.dropWhile (· != '\n')) = ['\n'] ↔ s.dropWhile (· != '\n') = ['\n'] := by
    generalize s.dropWhile (· != '\n') = r
    match r with
    | [] => simp [up]
    | [a] => simp [up, eq_upper nl_not_letter]
    | a :: b :: r => simp [up]
  simp only [this]
  split
  · simp
  · split <;> simp [upPair]

theorem matchValue_up (k : VKind) (s : List Char) :
    matchValue k (up s) = (matchValue k s).map upPair := by
  cases k
  · exact matchFloat_up s
  · exact matchCode_up s
  · exact matchInt_up s
  · exact matchName_up s
  · exact matchInt_up s

theorem not_letter_of_digit {c : Char} (h : c.isDigit = true) : ¬ IsLetter c := by
  intro hl; rw [letter_not_digit hl] at h; cases h

/-- Value texts other than names contain no letters. -/
theorem valueText_no_letter {k : VKind} (hk : k ≠ .name) {v : List Char} (h : ValueText k v) :
    ∀ c ∈ v, ¬ IsLetter c := by
  cases k with
  | name => exact absurd rfl hk
  | flt =>
    obtain ⟨ws, sg, b, rfl, hw, hs, hb⟩ := h
    intro c hc
    simp only [List.mem_append] at hc
    rcases hc with (hc | hc) | hc
    · exact not_letter_of_space (hw c hc)
    · rcases hs with rfl | rfl
      · simp at hc
      · simp at hc; subst hc; exact minus_not_letter
    · rcases hb with ⟨-, hb⟩ | ⟨i, f, rfl, hi, hf, -⟩
      · exact not_letter_of_digit (hb c hc)
      · simp only [List.mem_append, List.mem_cons] at hc
        rcases hc with hc | rfl | hc
        · exact not_letter_of_digit (hi c hc)
        · exact dot_not_letter
        · exact not_letter_of_digit (hf c hc)
  | code =>
    obtain ⟨ws, i, f, rfl, hw, hne, hi, hf⟩ := h
    intro c hc
    simp only [List.mem_append] at hc
    rcases hc with (hc | hc) | hc
    · exact not_letter_of_space (hw c hc)
    · exact not_letter_of_digit (hi c hc)
    · rcases hf with rfl | ⟨d, rfl, hd⟩
      · simp at hc
      · simp at hc
        rcases hc with rfl | rfl
        · exact dot_not_letter
        · exact not_letter_of_digit hd
  | posint =>
    obtain ⟨ws, i, rfl, hw, hne, hi⟩ := h
    intro c hc
    simp only [List.mem_append] at hc
    rcases hc with hc | hc
    · exact not_letter_of_space (hw c hc)
    · exact not_letter_of_digit (hi c hc)
  | tool =>
    obtain ⟨ws, i, rfl, hw, hne, hi⟩ := h
    intro c hc
    simp only [List.mem_append] at hc
    rcases hc with hc | hc
    · exact not_letter_of_space (hw c hc)
    · exact not_letter_of_digit (hi c hc)

/-- Upper-case the text of a program name; other words are unchanged. -/
def upWord (w : Word) : Word :=
  match w.letter, w.val with
  | 'O', .str s => ⟨'O', .str (up s)⟩
  | l, v => ⟨l, v⟩

theorem kindOf_name {l : Char} (h : wordKind l = some .name) : l = 'O' := by
  unfold wordKind at h
  split at h <;> first | rfl | simp at h

theorem upWord_eq {l : Char} {k : VKind} {v : List Char} (hl : wordKind l = some k)
    (hv : ValueText k v) : (⟨l, mkVal k (up v)⟩ : Word) = upWord ⟨l, mkVal k v⟩ := by
  by_cases hk : k = .name
  · subst hk
    have := kindOf_name hl
    subst this
    rfl
  · rw [up_fixed (valueText_no_letter hk hv)]
    have hO : l ≠ 'O' := by
      rintro rfl; simp [wordKind] at hl; exact hk hl.symm
    unfold upWord
    simp only
    split
    · exact absurd rfl hO
    · rfl

theorem nextLetter_up (s : List Char) :
    nextLetter (up s) = (nextLetter s).map (fun p => (p.1, up p.2)) := by
  induction s with
  | nil => rfl
  | cons a s ih =>
    simp only [up, List.map_cons, nextLetter]
    have h1 : isWordLetter a.toUpper = isWordLetter a := by
      unfold isWordLetter; rw [upper_upper]
    rw [h1]
    split
    · simp [upper_upper, up]
    · have h2 : a.toUpper = '\n' ↔ a = '\n' := eq_upper nl_not_letter a
      simp only [h2]
      split
      · rfl
      · exact ih

theorem all_space_up (s : List Char) : (up s).all isSpace = s.all isSpace := by
  unfold up
  rw [List.all_map]
  congr 1
  funext c
  exact space_upper c

theorem lexAux_up (n : ℕ) (s : List Char) :
    lexAux n (up s) = (lexAux n s).map (List.map upWord) := by
  induction n generalizing s with
  | zero => rfl
  | succ n ih =>
    rw [lexAux, lexAux, nextLetter_up]
    cases hnl : nextLetter s with
    | none =>
      simp only [Option.map_none, all_space_up]
      split <;> rfl
    | some p =>
      obtain ⟨l, r⟩ := p
      simp only [Option.map_some]
      cases hk : wordKind l with
      | none => rfl
      | some k =>
        simp only [matchValue_up]
        cases hm : matchValue k r with
        | none => rfl
        | some p =>
          obtain ⟨v, rest⟩ := p
          simp only [Option.map_some, upPair, ih]
          cases lexAux n rest with
          | error e => rfl
          | ok ws =>
            simp only [Except.map, List.map_cons]
            rw [upWord_eq hk (matchValue_sound hm).2]

theorem text2words_up (s : List Char) :
    text2words (up s) = (text2words s).map (List.map upWord) := by
  unfold text2words
  have : (up s).length = s.length := by simp [up]
  rw [this, lexAux_up]

theorem sameUpToCase_up {t t' : List Char} (h : SameUpToCase t t') : up t = up t' := by
  unfold SameUpToCase at h
  unfold up
  induction h with
  | nil => rfl
  | cons h1 _ ih =>
    simp only [List.map_cons, ih]
    rcases h1 with rfl | ⟨-, -, h⟩
    · rfl
    · rw [h]

end Pygcode
