import Verif.Model.Unicode
import Verif.Lemmas.Lex

/-!
# Characters beyond ASCII (C100)

What `text2words` makes of texts with digits of other scripts, with the four letters beyond ASCII that `[A-Z]` matches when
case is ignored, and with the separators U+001C to U+001F.
-/

namespace Pygcode
open Spec

/-- The letters that are matched but are not keys of the word table: `İ` and the Kelvin sign. -/
def Foreign (c : Char) : Prop := c = Char.ofNat 0x130 ∨ c = Char.ofNat 0x212A

instance : DecidablePred Foreign := fun c => inferInstanceAs (Decidable (_ ∨ _))

namespace Decimals
variable (D : Decimals)

/-- A character as ASCII, if it is a digit or one of the letters `ı`, `ſ`. -/
def fold (c : Char) : Char :=
  if c = Char.ofNat 0x131 then 'I' else if c = Char.ofNat 0x17F then 'S' else D.toAscii c

/-- The words with the text of their values (T, O) folded. -/
def foldWord (w : Word) : Word :=
  match w.val with
  | .num _ => w
  | .str s => ⟨w.letter, .str (s.map D.fold)⟩

theorem digitChar_isDigit {d : ℕ} (h : d < 10) : (Nat.digitChar d).isDigit = true := by
  have key : ∀ d : Fin 10, (Nat.digitChar d.val).isDigit = true := by decide
  exact key ⟨d, h⟩

theorem digit_spec {c : Char} {d : ℕ} (h : D.digit c = some d) : D.fold c = Nat.digitChar d ∧ d < 10 := by
  have h1 : c ≠ Char.ofNat 0x131 := by rintro rfl; rw [D.letters _ (by decide)] at h; cases h
  have h2 : c ≠ Char.ofNat 0x17F := by rintro rfl; rw [D.letters _ (by decide)] at h; cases h
  unfold fold toAscii
  rw [if_neg h1, if_neg h2, h]
  exact ⟨rfl, D.range c d h⟩

theorem ascii_digit {c : Char} (h : c.isDigit = true) : D.isDigit c = true := by
  have : c.toNat < 128 := by
    simp only [Char.isDigit, Bool.and_eq_true, decide_eq_true_eq] at h
    have := UInt32.le_iff_toNat_le.1 h.2
    have h' : c.toNat ≤ 57 := this
    omega
  unfold isDigit
  rw [D.ascii c this, if_pos h]
  rfl

theorem digitChar_val {c : Char} (h : c.isDigit = true) : Nat.digitChar (c.toNat - 48) = c := by
  simp only [Char.isDigit, Bool.and_eq_true, decide_eq_true_eq] at h
  have h1 : 48 ≤ c.toNat := UInt32.le_iff_toNat_le.1 h.1
  have h2 : c.toNat ≤ 57 := UInt32.le_iff_toNat_le.1 h.2
  have key : ∀ n, 48 ≤ n → n ≤ 57 → Nat.digitChar (n - 48) = Char.ofNat n := by
    have key : ∀ n : Fin 58, 48 ≤ n.val → Nat.digitChar (n.val - 48) = Char.ofNat n.val := by decide
    exact fun n a b => key ⟨n, by omega⟩ a
  rw [key _ h1 h2, Char.ofNat_toNat]

/-- ASCII characters stay as they are. -/
theorem fold_ascii {c : Char} (h : c.toNat < 128) : D.fold c = c := by
  have h1 : c ≠ Char.ofNat 0x131 := by rintro rfl; revert h; decide
  have h2 : c ≠ Char.ofNat 0x17F := by rintro rfl; revert h; decide
  unfold fold toAscii
  rw [if_neg h1, if_neg h2, D.ascii c h]
  by_cases hd : c.isDigit = true
  · rw [if_pos hd]; exact digitChar_val hd
  · rw [if_neg hd]

theorem fold_digit (c : Char) : (D.fold c).isDigit = D.isDigit c := by
  cases h : D.digit c with
  | some d =>
    obtain ⟨h1, h2⟩ := D.digit_spec h
    rw [h1, digitChar_isDigit h2]
    unfold isDigit; rw [h]; rfl
  | none =>
    have hd : D.isDigit c = false := by unfold isDigit; rw [h]; rfl
    rw [hd]
    unfold fold toAscii
    split_ifs
    · decide
    · decide
    · rw [h]
      cases hc : c.isDigit with
      | false => rfl
      | true => rw [D.ascii_digit hc] at hd; cases hd

theorem fold_space (c : Char) : isSpace (D.fold c) = isSpace c := by
  cases h : D.digit c with
  | some d =>
    obtain ⟨h1, h2⟩ := D.digit_spec h
    rw [h1, not_space_of_digit (digitChar_isDigit h2)]
    cases hc : isSpace c with
    | false => rfl
    | true => rw [D.space c hc] at h; cases h
  | none =>
    unfold fold toAscii
    split_ifs with h1 h2
    · subst h1; decide
    · subst h2; decide
    · rw [h]

/-- Other characters of the grammar are recognized before and after. -/
theorem fold_eq {k : Char} (hk : k.toNat < 128) (hd : k.isDigit = false) (hI : k ≠ 'I') (hS : k ≠ 'S') (c : Char) : D.fold c = k ↔ c = k := by
  constructor
  · intro h
    cases hc : D.digit c with
    | some d =>
      obtain ⟨h1, h2⟩ := D.digit_spec hc
      rw [h] at h1
      rw [h1, digitChar_isDigit h2] at hd
      cases hd
    | none =>
      unfold fold toAscii at h
      split_ifs at h
      · exact absurd h.symm hI
      · exact absurd h.symm hS
      · rw [hc] at h; exact h
  · rintro rfl
    exact D.fold_ascii hk

theorem isWordLetter_iff (c : Char) : isWordLetter c = c.isAlpha := by
  rw [Bool.eq_iff_iff, isLetter_iff]
  unfold IsLetter
  simp only [Char.isAlpha, Char.isUpper, Char.isLower, Bool.or_eq_true, Bool.and_eq_true, decide_eq_true_eq,
    UInt32.le_iff_toNat_le, ge_iff_le]
  rfl

/-- The letter of a folded character. -/
theorem letter_fold {c : Char} (h : ¬ Foreign c) :
    letter c = if isWordLetter (D.fold c) then some (D.fold c).toUpper else none := by
  have hF : ¬ (c = Char.ofNat 0x130 ∨ c = Char.ofNat 0x212A) := h
  rw [isWordLetter_iff]
  unfold letter
  rw [if_neg hF]
  by_cases ha : c.isAlpha = true
  · have : D.fold c = c := by
      apply D.fold_ascii
      rw [← isWordLetter_iff, isLetter_iff] at ha
      unfold IsLetter at ha
      omega
    rw [if_pos ha, this, if_pos ha]
  · rw [if_neg ha]
    by_cases h1 : c = Char.ofNat 0x131
    · subst h1
      have : D.fold (Char.ofNat 0x131) = 'I' := by unfold fold; rw [if_pos rfl]
      rw [if_pos rfl, this]; decide
    · rw [if_neg h1]
      by_cases h2 : c = Char.ofNat 0x17F
      · subst h2
        have : D.fold (Char.ofNat 0x17F) = 'S' := by unfold fold; rw [if_neg (by decide), if_pos rfl]
        rw [if_pos rfl, this]; decide
      · rw [if_neg h2]
        cases hd : D.digit c with
        | some d =>
          obtain ⟨e1, e2⟩ := D.digit_spec hd
          rw [e1, if_neg]
          have key : ∀ d : Fin 10, ¬ (Nat.digitChar d.val).isAlpha = true := by decide
          exact key ⟨d, e2⟩
        | none =>
          have : D.fold c = c := by unfold fold toAscii; rw [if_neg h1, if_neg h2, hd]
          rw [this, if_neg ha]

theorem nextLetter_fold (t : List Char) (h : ∀ c ∈ t, ¬ Foreign c) :
    Pygcode.nextLetter (t.map D.fold) = (nextLetter t).map (fun p => (p.1, p.2.map D.fold)) := by
  induction t with
  | nil => rfl
  | cons c t ih =>
    have hl := D.letter_fold (h c (by simp))
    simp only [List.map_cons, Pygcode.nextLetter, nextLetter]
    by_cases hw : isWordLetter (D.fold c) = true
    · rw [if_pos hw] at hl ⊢
      rw [hl]
      rfl
    · rw [if_neg hw] at hl ⊢
      rw [hl]
      simp only [D.fold_eq (k := '\n') (by decide) (by decide) (by decide) (by decide) c]
      split_ifs
      · rfl
      · exact ih (fun x hx => h x (by simp [hx]))

/-! ## Values -/

theorem take_digit (s : List Char) : (s.map D.fold).takeWhile Char.isDigit = (s.takeWhile D.isDigit).map D.fold := by
  rw [List.takeWhile_map]
  congr 2
  funext c; exact D.fold_digit c

theorem drop_digit (s : List Char) : (s.map D.fold).dropWhile Char.isDigit = (s.dropWhile D.isDigit).map D.fold := by
  rw [List.dropWhile_map]
  congr 2
  funext c; exact D.fold_digit c

theorem take_space (s : List Char) : (s.map D.fold).takeWhile isSpace = (s.takeWhile isSpace).map D.fold := by
  rw [List.takeWhile_map]
  congr 2
  funext c; exact D.fold_space c

theorem drop_space (s : List Char) : (s.map D.fold).dropWhile isSpace = (s.dropWhile isSpace).map D.fold := by
  rw [List.dropWhile_map]
  congr 2
  funext c; exact D.fold_space c

/-- Both parts of a match folded. -/
def foldBoth (p : List Char × List Char) : List Char × List Char := (p.1.map D.fold, p.2.map D.fold)

theorem matchInt_fold (s : List Char) : Pygcode.matchInt (s.map D.fold) = (D.matchInt s).map D.foldBoth := by
  unfold Pygcode.matchInt matchInt
  simp only [take_space, drop_space, take_digit, drop_digit, List.map_eq_nil_iff]
  split_ifs
  · rfl
  · simp [foldBoth]

theorem dot_eq (c : Char) : D.fold c = '.' ↔ c = '.' := D.fold_eq (by decide) (by decide) (by decide) (by decide) c

theorem minus_eq (c : Char) : D.fold c = '-' ↔ c = '-' := D.fold_eq (by decide) (by decide) (by decide) (by decide) c

theorem matchCode_fold (s : List Char) : Pygcode.matchCode (s.map D.fold) = (D.matchCode s).map D.foldBoth := by
  unfold Pygcode.matchCode matchCode
  simp only [take_space, drop_space, take_digit, drop_digit, List.map_eq_nil_iff]
  split_ifs with h1
  · rfl
  · cases hr : (s.dropWhile isSpace).dropWhile D.isDigit with
    | nil => simp [foldBoth]
    | cons a r =>
      by_cases ha : a = '.'
      · subst ha
        rw [List.map_cons, (D.dot_eq '.').2 rfl]
        cases r with
        | nil => simp [foldBoth, (D.dot_eq '.').2 rfl]
        | cons c r =>
          simp only [List.map_cons, D.fold_digit]
          split_ifs <;> simp [foldBoth, (D.dot_eq '.').2 rfl]
      · have ha' : D.fold a ≠ '.' := fun h => ha ((D.dot_eq a).1 h)
        rw [List.map_cons]
        split
        · rename_i h; simp only [List.cons.injEq] at h; exact absurd h.1 ha'
        · split
          · rename_i h; simp only [List.cons.injEq] at h; exact absurd h.1 ha
          · simp [foldBoth]

theorem matchMinus_fold (s : List Char) : matchMinus (s.map D.fold) = D.foldBoth (matchMinus s) := by
  cases s with
  | nil => rfl
  | cons a r =>
    by_cases ha : a = '-'
    · subst ha
      rw [List.map_cons, (D.minus_eq '-').2 rfl]
      simp [matchMinus, foldBoth, (D.minus_eq '-').2 rfl]
    · have ha' : D.fold a ≠ '-' := fun h => ha ((D.minus_eq a).1 h)
      rw [List.map_cons]
      unfold matchMinus
      split
      · rename_i h; simp only [List.cons.injEq] at h; exact absurd h.1 ha'
      · split
        · rename_i h; simp only [List.cons.injEq] at h; exact absurd h.1 ha
        · simp [foldBoth]

/-- The part of `REGEX_FLOAT` after the sign, for any class of digits. -/
def mantissa (p : Char → Bool) (x : List Char) (s2 : List Char) : Option (List Char × List Char) :=
  if s2.takeWhile p ≠ [] then
    match s2.dropWhile p with
    | '.' :: r => some (x ++ s2.takeWhile p ++ '.' :: r.takeWhile p, r.dropWhile p)
    | r => some (x ++ s2.takeWhile p, r)
  else
    match s2 with
    | '.' :: r => if r.takeWhile p = [] then none else some (x ++ '.' :: r.takeWhile p, r.dropWhile p)
    | _ => none

theorem mantissa_fold (x s : List Char) :
    mantissa Char.isDigit (x.map D.fold) (s.map D.fold) = (mantissa D.isDigit x s).map D.foldBoth := by
  unfold mantissa
  simp only [take_digit, drop_digit, ne_eq, List.map_eq_nil_iff]
  split_ifs with h1
  · cases s with
    | nil => rfl
    | cons a r =>
      by_cases ha : a = '.'
      · subst ha
        rw [List.map_cons, (D.dot_eq '.').2 rfl]
        simp only [take_digit, drop_digit, List.map_eq_nil_iff]
        split_ifs
        · rfl
        · simp [foldBoth, (D.dot_eq '.').2 rfl]
      · have ha' : D.fold a ≠ '.' := fun h => ha ((D.dot_eq a).1 h)
        rw [List.map_cons]
        split
        · rename_i h; simp only [List.cons.injEq] at h; exact absurd h.1 ha'
        · split
          · rename_i h; simp only [List.cons.injEq] at h; exact absurd h.1 ha
          · rfl
  · generalize s.dropWhile D.isDigit = r
    cases r with
    | nil => simp [foldBoth]
    | cons a r =>
      by_cases ha : a = '.'
      · subst ha
        rw [List.map_cons, (D.dot_eq '.').2 rfl]
        simp [foldBoth, take_digit, drop_digit, (D.dot_eq '.').2 rfl]
      · have ha' : D.fold a ≠ '.' := fun h => ha ((D.dot_eq a).1 h)
        rw [List.map_cons]
        split
        · rename_i h; simp only [List.cons.injEq] at h; exact absurd h.1 ha'
        · split
          · rename_i h; simp only [List.cons.injEq] at h; exact absurd h.1 ha
          · simp [foldBoth]

theorem matchFloat_fold (s : List Char) : Pygcode.matchFloat (s.map D.fold) = (D.matchFloat s).map D.foldBoth := by
  have e1 : ∀ s, Pygcode.matchFloat s = mantissa Char.isDigit (s.takeWhile isSpace ++ (matchMinus (s.dropWhile isSpace)).1)
      (matchMinus (s.dropWhile isSpace)).2 := fun s => rfl
  have e2 : D.matchFloat s = mantissa D.isDigit (s.takeWhile isSpace ++ (matchMinus (s.dropWhile isSpace)).1)
      (matchMinus (s.dropWhile isSpace)).2 := rfl
  rw [e1, e2, ← mantissa_fold, take_space, drop_space, matchMinus_fold]
  simp [foldBoth]

theorem matchName_fold (s : List Char) : matchName (s.map D.fold) = (matchName s).map D.foldBoth := by
  have hn : ∀ c, (D.fold c != '\n') = (c != '\n') := by
    intro c
    rw [Bool.eq_iff_iff, bne_iff_ne, bne_iff_ne, ne_eq, ne_eq,
      D.fold_eq (k := '\n') (by decide) (by decide) (by decide) (by decide) c]
  have h1 : (s.map D.fold).takeWhile (· != '\n') = (s.takeWhile (· != '\n')).map D.fold := by
    rw [List.takeWhile_map]; congr 2; funext c; exact hn c
  have h2 : (s.map D.fold).dropWhile (· != '\n') = (s.dropWhile (· != '\n')).map D.fold := by
    rw [List.dropWhile_map]; congr 2; funext c; exact hn c
  unfold matchName
  simp only [h1, h2, List.map_eq_nil_iff]
  have h3 : ∀ r : List Char, r.map D.fold = ['\n'] ↔ r = ['\n'] := by
    intro r
    rw [List.map_eq_singleton_iff]
    constructor
    · rintro ⟨a, rfl, h⟩
      rw [(D.fold_eq (k := '\n') (by decide) (by decide) (by decide) (by decide) a).1 h]
    · rintro rfl
      exact ⟨_, rfl, D.fold_ascii (by decide)⟩
  simp only [h3]
  split_ifs <;> first | rfl | simp [foldBoth]

theorem matchValue_fold (k : VKind) (s : List Char) :
    Pygcode.matchValue k (s.map D.fold) = (D.matchValue k s).map D.foldBoth := by
  cases k
  · exact D.matchFloat_fold s
  · exact D.matchCode_fold s
  · exact D.matchInt_fold s
  · exact D.matchName_fold s
  · exact D.matchInt_fold s

/-! ## Parts of a match -/

theorem mantissa_parts {p : Char → Bool} {x s v r : List Char} (h : mantissa p x s = some (v, r)) : x ++ s = v ++ r := by
  unfold mantissa at h
  have hs : s.takeWhile p ++ s.dropWhile p = s := List.takeWhile_append_dropWhile
  split_ifs at h with h1
  · split at h
    · rename_i r' hr
      simp only [Option.some.injEq, Prod.mk.injEq] at h
      obtain ⟨rfl, rfl⟩ := h
      rw [hr] at hs
      have : r'.takeWhile p ++ r'.dropWhile p = r' := List.takeWhile_append_dropWhile
      conv_lhs => rw [← hs, ← this]
      simp
    · simp only [Option.some.injEq, Prod.mk.injEq] at h
      obtain ⟨rfl, rfl⟩ := h
      conv_lhs => rw [← hs]
      simp
  · split at h
    · rename_i r'
      split_ifs at h
      simp only [Option.some.injEq, Prod.mk.injEq] at h
      obtain ⟨rfl, rfl⟩ := h
      have : r'.takeWhile p ++ r'.dropWhile p = r' := List.takeWhile_append_dropWhile
      conv_lhs => rw [← this]
      simp
    · cases h

/-- A character of a number. -/
def NumChar (c : Char) : Prop := isSpace c = true ∨ D.isDigit c = true ∨ c = '-' ∨ c = '.'

theorem matchMinus_chars (s : List Char) : ∀ c ∈ (matchMinus s).1, c = '-' := by
  unfold matchMinus
  split <;> simp

theorem matchMinus_parts (s : List Char) : (matchMinus s).1 ++ (matchMinus s).2 = s := by
  unfold matchMinus
  split <;> simp

theorem mantissa_chars {x s v r : List Char} (h : mantissa D.isDigit x s = some (v, r)) :
    ∀ c ∈ v, c ∈ x ∨ D.isDigit c = true ∨ c = '.' := by
  unfold mantissa at h
  split_ifs at h
  · split at h
    · simp only [Option.some.injEq, Prod.mk.injEq] at h
      obtain ⟨rfl, rfl⟩ := h
      intro c hc
      simp only [List.mem_append, List.mem_cons] at hc
      rcases hc with (h | h) | h | h
      · exact .inl h
      · exact .inr (.inl (mem_takeWhile h))
      · exact .inr (.inr h)
      · exact .inr (.inl (mem_takeWhile h))
    · simp only [Option.some.injEq, Prod.mk.injEq] at h
      obtain ⟨rfl, rfl⟩ := h
      intro c hc
      rcases List.mem_append.1 hc with h | h
      · exact .inl h
      · exact .inr (.inl (mem_takeWhile h))
  · split at h
    · split_ifs at h
      simp only [Option.some.injEq, Prod.mk.injEq] at h
      obtain ⟨rfl, rfl⟩ := h
      intro c hc
      simp only [List.mem_append, List.mem_cons] at hc
      rcases hc with h | h | h
      · exact .inl h
      · exact .inr (.inr h)
      · exact .inr (.inl (mem_takeWhile h))
    · cases h

theorem matchInt_parts {s v r : List Char} (h : D.matchInt s = some (v, r)) : s = v ++ r ∧ ∀ c ∈ v, D.NumChar c := by
  unfold matchInt at h
  simp only at h
  split_ifs at h
  simp only [Option.some.injEq, Prod.mk.injEq] at h
  obtain ⟨rfl, rfl⟩ := h
  constructor
  · rw [List.append_assoc, List.takeWhile_append_dropWhile, List.takeWhile_append_dropWhile]
  · intro c hc
    rcases List.mem_append.1 hc with h | h
    · exact .inl (mem_takeWhile h)
    · exact .inr (.inl (mem_takeWhile h))

theorem matchCode_parts {s v r : List Char} (h : D.matchCode s = some (v, r)) : s = v ++ r ∧ ∀ c ∈ v, D.NumChar c := by
  unfold matchCode at h
  simp only at h
  have h1 : s.takeWhile isSpace ++ s.dropWhile isSpace = s := List.takeWhile_append_dropWhile
  have h2 : (s.dropWhile isSpace).takeWhile D.isDigit ++ (s.dropWhile isSpace).dropWhile D.isDigit = s.dropWhile isSpace :=
    List.takeWhile_append_dropWhile
  have hc : ∀ c ∈ s.takeWhile isSpace ++ (s.dropWhile isSpace).takeWhile D.isDigit, D.NumChar c := by
    intro c hc
    rcases List.mem_append.1 hc with h | h
    · exact .inl (mem_takeWhile h)
    · exact .inr (.inl (mem_takeWhile h))
  split_ifs at h
  split at h
  · rename_i c r' hr
    rw [hr] at h2
    split_ifs at h with hd
    · simp only [Option.some.injEq, Prod.mk.injEq] at h
      obtain ⟨rfl, rfl⟩ := h
      refine ⟨?_, fun x hx => ?_⟩
      · conv_lhs => rw [← h1, ← h2]
        simp
      · rcases List.mem_append.1 hx with h | h
        · exact hc x h
        · simp only [List.mem_cons, List.not_mem_nil, or_false] at h
          rcases h with rfl | rfl
          · exact .inr (.inr (.inr rfl))
          · exact .inr (.inl hd)
    · simp only [Option.some.injEq, Prod.mk.injEq] at h
      obtain ⟨rfl, rfl⟩ := h
      refine ⟨?_, hc⟩
      conv_lhs => rw [← h1, ← h2]
      simp
  · simp only [Option.some.injEq, Prod.mk.injEq] at h
    obtain ⟨rfl, rfl⟩ := h
    refine ⟨?_, hc⟩
    conv_lhs => rw [← h1, ← h2]
    simp

theorem matchFloat_parts {s v r : List Char} (h : D.matchFloat s = some (v, r)) : s = v ++ r ∧ ∀ c ∈ v, D.NumChar c := by
  have e2 : D.matchFloat s = mantissa D.isDigit (s.takeWhile isSpace ++ (matchMinus (s.dropWhile isSpace)).1)
      (matchMinus (s.dropWhile isSpace)).2 := rfl
  rw [e2] at h
  constructor
  · rw [← mantissa_parts h, List.append_assoc, matchMinus_parts, List.takeWhile_append_dropWhile]
  · intro c hc
    rcases D.mantissa_chars h c hc with h | h | h
    · rcases List.mem_append.1 h with h | h
      · exact .inl (mem_takeWhile h)
      · exact .inr (.inr (.inl (matchMinus_chars _ c h)))
    · exact .inr (.inl h)
    · exact .inr (.inr (.inr h))

theorem matchValue_parts {k : VKind} {s v r : List Char} (h : D.matchValue k s = some (v, r)) :
    s = v ++ r ∧ (k ≠ .name → ∀ c ∈ v, D.NumChar c) := by
  cases k
  · exact ⟨(D.matchFloat_parts h).1, fun _ => (D.matchFloat_parts h).2⟩
  · exact ⟨(D.matchCode_parts h).1, fun _ => (D.matchCode_parts h).2⟩
  · exact ⟨(D.matchInt_parts h).1, fun _ => (D.matchInt_parts h).2⟩
  · refine ⟨?_, fun h => absurd rfl h⟩
    change matchName s = some (v, r) at h
    unfold matchName at h
    simp only at h
    split_ifs at h
    simp only [Option.some.injEq, Prod.mk.injEq] at h
    obtain ⟨rfl, rfl⟩ := h
    exact List.takeWhile_append_dropWhile.symm
  · exact ⟨(D.matchInt_parts h).1, fun _ => (D.matchInt_parts h).2⟩

theorem fold_numChar {c : Char} (h : D.NumChar c) : D.fold c = D.toAscii c := by
  unfold fold
  have key : ∀ k ∈ [Char.ofNat 0x131, Char.ofNat 0x17F], ¬ D.NumChar k := by
    intro k hk
    have hd : D.isDigit k = false := by
      unfold isDigit
      rw [D.letters k (by simp only [List.mem_cons, List.not_mem_nil, or_false] at hk ⊢; tauto)]; rfl
    unfold NumChar
    rw [hd]
    simp only [List.mem_cons, List.not_mem_nil, or_false] at hk
    rcases hk with rfl | rfl <;> decide
  rw [if_neg (by rintro rfl; exact key _ (by decide) h), if_neg (by rintro rfl; exact key _ (by decide) h)]

/-- One of the characters U+001C to U+001F. -/
def Separator (c : Char) : Prop := 28 ≤ c.toNat ∧ c.toNat ≤ 31

instance : DecidablePred Separator := fun c => inferInstanceAs (Decidable (_ ∧ _))

theorem number_ok {v : List Char} (hv : ∀ c ∈ v, D.NumChar c) (hs : ∀ c ∈ v, ¬ Separator c) :
    D.number v = .ok (numText (v.map D.fold)) := by
  unfold number
  rw [if_neg]
  · rw [List.map_congr_left (fun c hc => D.fold_numChar (hv c hc))]
  · intro h
    rw [Bool.and_eq_true, List.any_eq_true] at h
    obtain ⟨-, c, hc, h⟩ := h
    simp only [Bool.and_eq_true, decide_eq_true_eq] at h
    exact hs c hc h

theorem mkVal_ok {k : VKind} {s v r : List Char} (h : D.matchValue k s = some (v, r)) (hs : ∀ c ∈ v, ¬ Separator c) (l : Char) :
    ∃ x, D.mkVal k v = .ok x ∧ D.foldWord ⟨l, x⟩ = ⟨l, Pygcode.mkVal k (v.map D.fold)⟩ := by
  have hp := (D.matchValue_parts h).2
  cases k
  · exact ⟨_, by rw [mkVal, D.number_ok (hp (by decide)) hs]; rfl, rfl⟩
  · exact ⟨_, by rw [mkVal, D.number_ok (hp (by decide)) hs]; rfl, rfl⟩
  · exact ⟨_, by rw [mkVal, D.number_ok (hp (by decide)) hs]; rfl, rfl⟩
  · exact ⟨_, rfl, rfl⟩
  · exact ⟨_, rfl, rfl⟩

theorem nextLetter_tail {t s : List Char} {l : Char} (h : nextLetter t = some (l, s)) : ∀ c ∈ s, c ∈ t := by
  induction t with
  | nil => cases h
  | cons a t ih =>
    unfold nextLetter at h
    split at h
    · simp only [Option.some.injEq, Prod.mk.injEq] at h
      obtain ⟨-, rfl⟩ := h
      intro c hc; simp [hc]
    · split_ifs at h
      intro c hc
      exact List.mem_cons_of_mem _ (ih h c hc)

theorem lexAux_fold (n : ℕ) : ∀ t : List Char, (∀ c ∈ t, ¬ Foreign c ∧ ¬ Separator c) →
    (D.lexAux n t).map (List.map D.foldWord) = Pygcode.lexAux n (t.map D.fold) := by
  induction n with
  | zero => intro t _; rfl
  | succ n ih =>
    intro t ht
    have hn := D.nextLetter_fold t (fun c hc => (ht c hc).1)
    unfold lexAux Pygcode.lexAux
    rw [hn]
    cases hl : nextLetter t with
    | none =>
      simp only [Option.map_none]
      have : (t.map D.fold).all isSpace = t.all isSpace := by
        rw [List.all_map]; congr 1; funext c; exact D.fold_space c
      rw [this]
      split_ifs <;> rfl
    | some p =>
      obtain ⟨l, r⟩ := p
      have hr := nextLetter_tail hl
      simp only [Option.map_some]
      cases hk : wordKind l with
      | none => rfl
      | some k =>
        simp only
        rw [D.matchValue_fold]
        cases hv : D.matchValue k r with
        | none => rfl
        | some q =>
          obtain ⟨v, rest⟩ := q
          have hp := (D.matchValue_parts hv).1
          obtain ⟨x, hx1, hx2⟩ := D.mkVal_ok hv (fun c hc => (ht c (hr c (by rw [hp]; simp [hc]))).2) l
          simp only [Option.map_some, foldBoth]
          rw [hx1, ← ih rest (fun c hc => ht c (hr c (by rw [hp]; simp [hc])))]
          simp only
          cases D.lexAux n rest with
          | error e => rfl
          | ok ws => simp only [Except.map, List.map_cons, hx2]

theorem text_fold (t : List Char) (ht : ∀ c ∈ t, ¬ Foreign c ∧ ¬ Separator c) :
    (D.text2words t).map (List.map D.foldWord) = Pygcode.text2words (t.map D.fold) := by
  have := D.lexAux_fold (t.length + 1) t ht
  unfold text2words Pygcode.text2words
  rw [this, List.length_map]

end Decimals

open Decimals in
/-- **C100** (digits and letters): a text without `İ`, Kelvin sign and separators is read as the ASCII text with the digits
of the same values and with I and S for `ı` and `ſ`: the same words or the same exception.  Only T and O, whose values are texts, keep
the characters as written. -/
theorem C100_fold (D : Decimals) (t : List Char) (ht : ∀ c ∈ t, ¬ Foreign c ∧ ¬ Separator c) :
    (D.text2words t).map (List.map D.foldWord) = Pygcode.text2words (t.map D.fold) :=
  D.text_fold t ht

namespace Decimals
variable (D : Decimals)

theorem lexAux_chars (n : ℕ) : ∀ (t : List Char) (ws : List Word), D.lexAux n t = .ok ws →
    ∀ w ∈ ws, ∀ s, w.val = .str s → ∀ c ∈ s, c ∈ t := by
  induction n with
  | zero => intro t ws h; cases h
  | succ n ih =>
    intro t ws h
    unfold lexAux at h
    split at h
    · split_ifs at h
      cases h
      simp
    · rename_i l r hl
      have hr := nextLetter_tail hl
      split at h
      · cases h
      · rename_i k hk
        split at h
        · cases h
        · rename_i v rest hv
          have hp := (D.matchValue_parts hv).1
          split at h
          · cases h
          · rename_i x hx
            split at h
            · cases h
            · rename_i ws' hws
              cases h
              intro w hw s hs c hc
              rcases List.mem_cons.1 hw with rfl | hw
              · have : s = v := by
                  change x = .str s at hs
                  subst hs
                  cases k <;> simp only [mkVal] at hx
                  · cases hn : D.number v <;> rw [hn] at hx <;> cases hx
                  · cases hn : D.number v <;> rw [hn] at hx <;> cases hx
                  · cases hn : D.number v <;> rw [hn] at hx <;> cases hx
                  · cases hx; rfl
                  · cases hx; rfl
                subst this
                exact hr c (by rw [hp]; simp [hc])
              · exact hr c (by rw [hp]; exact List.mem_append_right _ (ih rest ws' hws w hw s hs c hc))

end Decimals

open Decimals in
/-- **C100** (ASCII): the readers agree on ASCII texts without separators, whichever digits there are beyond ASCII; so what is
proved about `text2words` holds for them. -/
theorem C100_ascii (D : Decimals) (t : List Char) (ht : ∀ c ∈ t, c.toNat < 128 ∧ ¬ Separator c) :
    D.text2words t = Pygcode.text2words t := by
  have hf : t.map D.fold = t := by
    conv_rhs => rw [← List.map_id t]
    exact List.map_congr_left (fun c hc => D.fold_ascii (ht c hc).1)
  have h := C100_fold D t (fun c hc => ⟨by rintro (rfl | rfl) <;> exact absurd (ht _ hc).1 (by decide), (ht c hc).2⟩)
  rw [hf] at h
  rw [← h]
  cases hw : D.text2words t with
  | error e => rfl
  | ok ws =>
    simp only [Except.map]
    congr 1
    conv_lhs => rw [← List.map_id ws]
    refine List.map_congr_left (fun w hm => ?_)
    unfold foldWord
    split
    · rfl
    · rename_i s hs
      obtain ⟨l, x⟩ := w
      change x = _ at hs
      subst hs
      have hss : s.map D.fold = s := by
        conv_rhs => rw [← List.map_id s]
        exact List.map_congr_left (fun c hc => D.fold_ascii (ht c (D.lexAux_chars _ t ws hw _ hm s rfl c hc)).1)
      show (⟨l, .str s⟩ : Word) = ⟨l, .str (s.map D.fold)⟩
      rw [hss]

namespace Decimals
variable (D : Decimals)

/-! ## Letters that are no keys -/

theorem take_stop {α} {p : α → Bool} (a : List α) {k : α} (r : List α) (hk : p k = false) :
    (a ++ k :: r).takeWhile p = a.takeWhile p ∧ (a ++ k :: r).dropWhile p = a.dropWhile p ++ k :: r := by
  induction a with
  | nil => simp [hk]
  | cons x a ih =>
    by_cases hx : p x = true
    · simp [hx, ih]
    · simp [hx]

theorem matchMinus_stop (a : List Char) {k : Char} (r : List Char) (hk : k ≠ '-') :
    matchMinus (a ++ k :: r) = ((matchMinus a).1, (matchMinus a).2 ++ k :: r) := by
  cases a with
  | nil =>
    rw [List.nil_append]
    unfold matchMinus
    split
    · rename_i h; simp only [List.cons.injEq] at h; exact absurd h.1 hk
    · rfl
  | cons x a =>
    by_cases hx : x = '-'
    · subst hx; rfl
    · rw [List.cons_append]
      unfold matchMinus
      split
      · rename_i h; simp only [List.cons.injEq] at h; exact absurd h.1 hx
      · split
        · rename_i h; simp only [List.cons.injEq] at h; exact absurd h.1 hx
        · rfl

theorem matchInt_stop {s v rest : List Char} {k : Char} (r : List Char) (hs : isSpace k = false) (hd : D.isDigit k = false)
    (h : D.matchInt s = some (v, rest)) : D.matchInt (s ++ k :: r) = some (v, rest ++ k :: r) := by
  unfold matchInt at h ⊢
  simp only [(take_stop s r hs).1, (take_stop s r hs).2, (take_stop _ r hd).1, (take_stop _ r hd).2] at h ⊢
  split_ifs at h ⊢
  simp only [Option.some.injEq, Prod.mk.injEq] at h ⊢
  exact ⟨h.1, by rw [h.2]⟩

theorem matchCode_stop {s v rest : List Char} {k : Char} (r : List Char) (hs : isSpace k = false) (hd : D.isDigit k = false)
    (h : D.matchCode s = some (v, rest)) (hk : k ≠ '.') : D.matchCode (s ++ k :: r) = some (v, rest ++ k :: r) := by
  unfold matchCode at h ⊢
  simp only [(take_stop s r hs).1, (take_stop s r hs).2, (take_stop _ r hd).1, (take_stop _ r hd).2] at h ⊢
  split_ifs at h ⊢ with h1
  generalize (s.dropWhile isSpace).dropWhile D.isDigit = q at h ⊢
  cases q with
  | nil =>
    simp only [Option.some.injEq, Prod.mk.injEq] at h
    obtain ⟨rfl, rfl⟩ := h
    rw [List.nil_append]
    split
    · rename_i h; simp only [List.cons.injEq] at h; exact absurd h.1 hk
    · rfl
  | cons a q =>
    by_cases ha : a = '.'
    · subst ha
      cases q with
      | nil =>
        simp only [Option.some.injEq, Prod.mk.injEq] at h
        obtain ⟨rfl, rfl⟩ := h
        simp [hd]
      | cons b q =>
        simp only [List.cons_append] at h ⊢
        split_ifs at h ⊢ <;> simp only [Option.some.injEq, Prod.mk.injEq] at h ⊢ <;> exact ⟨h.1, by rw [← h.2]; try rfl⟩
    · rw [List.cons_append]
      split at h
      · rename_i h'; simp only [List.cons.injEq] at h'; exact absurd h'.1 ha
      · split
        · rename_i h'; simp only [List.cons.injEq] at h'; exact absurd h'.1 ha
        · simp only [Option.some.injEq, Prod.mk.injEq] at h ⊢
          exact ⟨h.1, by rw [← h.2]; rfl⟩

theorem mantissa_stop {p : Char → Bool} {x s v rest : List Char} {k : Char} (r : List Char) (hd : p k = false) (hk : k ≠ '.')
    (h : mantissa p x s = some (v, rest)) : mantissa p x (s ++ k :: r) = some (v, rest ++ k :: r) := by
  unfold mantissa at h ⊢
  simp only [(take_stop _ r hd).1, (take_stop _ r hd).2] at h ⊢
  split_ifs at h ⊢ with h1
  · generalize s.dropWhile p = q at h ⊢
    cases q with
    | nil =>
      simp only [Option.some.injEq, Prod.mk.injEq] at h
      obtain ⟨rfl, rfl⟩ := h
      rw [List.nil_append]
      split
      · rename_i h; simp only [List.cons.injEq] at h; exact absurd h.1 hk
      · rfl
    | cons a q =>
      by_cases ha : a = '.'
      · subst ha
        simp only [List.cons_append, Option.some.injEq, Prod.mk.injEq, (take_stop q r hd).1, (take_stop q r hd).2] at h ⊢
        exact ⟨h.1, by rw [← h.2]⟩
      · rw [List.cons_append]
        split at h
        · rename_i h'; simp only [List.cons.injEq] at h'; exact absurd h'.1 ha
        · split
          · rename_i h'; simp only [List.cons.injEq] at h'; exact absurd h'.1 ha
          · simp only [Option.some.injEq, Prod.mk.injEq] at h ⊢
            exact ⟨h.1, by rw [← h.2]; rfl⟩
  · cases s with
    | nil => cases h
    | cons a q =>
      by_cases ha : a = '.'
      · subst ha
        simp only [List.cons_append, (take_stop q r hd).1, (take_stop q r hd).2] at h ⊢
        split_ifs at h ⊢
        simp only [Option.some.injEq, Prod.mk.injEq] at h ⊢
        exact ⟨h.1, by rw [← h.2]⟩
      · split at h
        · rename_i h'; simp only [List.cons.injEq] at h'; exact absurd h'.1 ha
        · cases h

theorem matchValue_stop {K : VKind} (hK : K ≠ .name) {s v rest : List Char} {k : Char} (r : List Char) (hs : isSpace k = false)
    (hd : D.isDigit k = false) (hk : k ≠ '.') (hm : k ≠ '-') (h : D.matchValue K s = some (v, rest)) :
    D.matchValue K (s ++ k :: r) = some (v, rest ++ k :: r) := by
  cases K with
  | flt =>
    have e : ∀ s, D.matchValue .flt s = mantissa D.isDigit (s.takeWhile isSpace ++ (matchMinus (s.dropWhile isSpace)).1)
      (matchMinus (s.dropWhile isSpace)).2 := fun _ => rfl
    rw [e] at h ⊢
    rw [(take_stop s r hs).1, (take_stop s r hs).2, matchMinus_stop _ r hm]
    exact mantissa_stop r hd hk h
  | code => exact D.matchCode_stop r hs hd h hk
  | posint => exact D.matchInt_stop r hs hd h
  | name => exact absurd rfl hK
  | tool => exact D.matchInt_stop r hs hd h

theorem nextLetter_stop {a : List Char} {l : Char} {s : List Char} (h : nextLetter a = some (l, s)) (r : List Char) :
    nextLetter (a ++ r) = some (l, s ++ r) := by
  induction a with
  | nil => cases h
  | cons x a ih =>
    rw [List.cons_append]
    unfold nextLetter at h ⊢
    cases hx : letter x with
    | some y =>
      rw [hx] at h
      simp only [Option.some.injEq, Prod.mk.injEq] at h ⊢
      exact ⟨h.1, by rw [h.2]⟩
    | none =>
      rw [hx] at h
      simp only at h ⊢
      split_ifs at h ⊢
      exact ih h

theorem letter_space {c : Char} (h : isSpace c = true) : letter c = none := by
  have ha : c.isAlpha = false := by
    have := not_letter_of_space h
    rw [← isLetter_iff, isWordLetter_iff] at this
    simpa using this
  unfold letter
  rw [if_neg (by rw [ha]; decide), if_neg (by rintro rfl; revert h; decide), if_neg (by rintro rfl; revert h; decide),
    if_neg (by rintro (rfl | rfl) <;> revert h <;> decide)]

theorem lexAux_key {k : Char} (hk : Foreign k) (r : List Char) (n : ℕ) : ∀ (t : List Char) (ws : List Word), D.lexAux n t = .ok ws →
    (∀ w ∈ ws, w.letter ≠ 'O') → '\n' ∉ t → ∀ N, n ≤ N → D.lexAux N (t ++ k :: r) = .error .key := by
  have h1 : isSpace k = false := by rcases hk with rfl | rfl <;> decide
  have h2 : D.isDigit k = false := by
    unfold isDigit
    rw [D.letters k (by rcases hk with rfl | rfl <;> simp)]; rfl
  have h3 : k ≠ '.' := by rcases hk with rfl | rfl <;> decide
  have h4 : k ≠ '-' := by rcases hk with rfl | rfl <;> decide
  have h5 : letter k = some k := by
    unfold letter
    rcases hk with rfl | rfl <;> decide
  have h6 : wordKind k = none := by rcases hk with rfl | rfl <;> rfl
  induction n with
  | zero => intro t ws h; cases h
  | succ n ih =>
    intro t ws h hO hnl N hN
    obtain ⟨N, rfl⟩ : ∃ M, N = M + 1 := ⟨N - 1, by omega⟩
    unfold lexAux at h ⊢
    cases hl : nextLetter t with
    | none =>
      rw [hl] at h
      simp only at h
      split_ifs at h with hb
      have : nextLetter (t ++ k :: r) = some (k, r) := by
        clear h hl
        induction t with
        | nil => rw [List.nil_append]; unfold nextLetter; rw [h5]
        | cons x t ih' =>
          simp only [List.all_cons, Bool.and_eq_true] at hb
          rw [List.cons_append]
          unfold nextLetter
          rw [letter_space hb.1]
          simp only
          rw [if_neg (by rintro rfl; simp at hnl)]
          exact ih' (by simp only [List.mem_cons, not_or] at hnl; exact hnl.2) hb.2
      rw [this]
      simp only
      rw [h6]
    | some p =>
      obtain ⟨l, s⟩ := p
      rw [hl] at h
      rw [nextLetter_stop hl]
      simp only at h ⊢
      cases hkd : wordKind l with
      | none => rfl
      | some K =>
        rw [hkd] at h
        simp only at h ⊢
        cases hv : D.matchValue K s with
        | none => rw [hv] at h; cases h
        | some q =>
          obtain ⟨v, rest⟩ := q
          rw [hv] at h
          simp only at h
          cases hx : D.mkVal K v with
          | error e => rw [hx] at h; cases h
          | ok x =>
            rw [hx] at h
            simp only at h
            cases hw : D.lexAux n rest with
            | error e => rw [hw] at h; cases h
            | ok ws' =>
              rw [hw] at h
              cases h
              have hK : K ≠ .name := by
                rintro rfl
                have : l ≠ 'O' := hO ⟨l, x⟩ (by simp)
                unfold wordKind at hkd
                split at hkd <;> first | (simp at hkd; done) | (exact this rfl)
              rw [D.matchValue_stop hK r h1 h2 h3 h4 hv]
              simp only
              rw [hx]
              simp only
              rw [ih rest ws' hw (fun w hm => hO w (by simp [hm]))
                (fun hc => hnl (nextLetter_tail hl _ (by rw [(D.matchValue_parts hv).1]; simp [hc]))) N (by omega)]

end Decimals

open Decimals in
/-- **C100** (no keys): `İ` or the Kelvin sign after text that is read raises `KeyError`, not the exception for bad texts. -/
theorem C100_key (D : Decimals) (t r : List Char) (k : Char) (hk : Foreign k) (ws : List Word) (h : D.text2words t = .ok ws)
    (hO : ∀ w ∈ ws, w.letter ≠ 'O') (hnl : '\n' ∉ t) : D.text2words (t ++ k :: r) = .error .key :=
  D.lexAux_key hk r (t.length + 1) t ws h hO hnl _ (by simp)

namespace Decimals
variable (D : Decimals)

/-! ## Separators -/

theorem match_separator {K : VKind} (hK : K = .flt ∨ K = .code ∨ K = .posint) (k x : Char) (ds : List Char) (hk : isSpace k = true)
    (hx : x.isDigit = true) : ∃ v rest, D.matchValue K (k :: x :: ds) = some (k :: v, rest) := by
  have hs : isSpace x = false := not_space_of_digit hx
  have hD := D.ascii_digit hx
  have hm : matchMinus (x :: ds) = ([], x :: ds) := by
    unfold matchMinus
    split
    · rename_i h; simp only [List.cons.injEq] at h; exact absurd h.1 (digit_ne_minus hx)
    · rfl
  have t1 : (k :: x :: ds).takeWhile isSpace = [k] := by simp [hk, hs]
  have t2 : (k :: x :: ds).dropWhile isSpace = x :: ds := by simp [hk, hs]
  have t3 : (x :: ds).takeWhile D.isDigit = x :: ds.takeWhile D.isDigit := by simp [hD]
  rcases hK with rfl | rfl | rfl
  · have e : D.matchValue .flt (k :: x :: ds) = mantissa D.isDigit ([k] ++ []) (x :: ds) := by
      have : D.matchValue .flt (k :: x :: ds) = mantissa D.isDigit ((k :: x :: ds).takeWhile isSpace ++
        (matchMinus ((k :: x :: ds).dropWhile isSpace)).1) (matchMinus ((k :: x :: ds).dropWhile isSpace)).2 := rfl
      rw [this, t1, t2, hm]
    rw [e]
    unfold mantissa
    rw [if_pos (by rw [t3]; simp)]
    split
    · exact ⟨_, _, rfl⟩
    · exact ⟨_, _, rfl⟩
  · change ∃ v rest, D.matchCode _ = _
    unfold matchCode
    simp only [t1, t2]
    rw [if_neg (by rw [t3]; simp)]
    split
    · split_ifs
      · exact ⟨_, _, rfl⟩
      · exact ⟨_, _, rfl⟩
    · exact ⟨_, _, rfl⟩
  · change ∃ v rest, D.matchInt _ = _
    unfold matchInt
    simp only [t1, t2]
    rw [if_neg (by rw [t3]; simp)]
    exact ⟨_, _, rfl⟩

theorem text_separator (c k : Char) (ds r : List Char) (hc : c.isAlpha = true) (hT : c.toUpper ≠ 'T') (hO : c.toUpper ≠ 'O')
    (hk : Separator k) (hd : ∀ x ∈ ds, x.isDigit = true) (hne : ds ≠ []) (hr : ∀ x ∈ r, x.toNat < 128) :
    D.text2words (c :: k :: (ds ++ r)) = .error .value := by
  obtain ⟨x, ds, rfl⟩ := List.exists_cons_of_ne_nil hne
  have hl : nextLetter (c :: k :: (x :: ds ++ r)) = some (c.toUpper, k :: x :: (ds ++ r)) := by
    unfold nextLetter letter
    rw [if_pos hc]
    rfl
  obtain ⟨K, hK⟩ := kind_some_of_letter (c := c) (by rw [← isLetter_iff, isWordLetter_iff]; exact hc)
  have hK' : K = .flt ∨ K = .code ∨ K = .posint := by
    unfold wordKind at hK
    split at hK <;> first | (cases hK; done) | (simp at hK; subst hK; simp; done) | (exact absurd (by assumption) hT) | (exact absurd (by assumption) hO)
  have hks : isSpace k = true := by
    unfold Separator at hk
    unfold isSpace
    simp [hk.1, show k.toNat ≤ 32 by omega]
  obtain ⟨v, rest, hv⟩ := D.match_separator hK' k x (ds ++ r) hks (hd x (by simp))
  have hp := (D.matchValue_parts hv).1
  have hn : D.number (k :: v) = .error .value := by
    unfold number
    rw [if_pos]
    rw [Bool.and_eq_true, List.all_eq_true, List.any_eq_true]
    refine ⟨fun y hy => ?_, k, by simp, by simp [hk.1, hk.2]⟩
    have hy' : y ∈ k :: x :: (ds ++ r) := by rw [hp]; exact List.mem_append_left _ hy
    have dig : ∀ {z : Char}, z.isDigit = true → z.toNat < 128 := by
      intro z hz
      simp only [Char.isDigit, Bool.and_eq_true, decide_eq_true_eq] at hz
      have h' : z.toNat ≤ 57 := UInt32.le_iff_toNat_le.1 hz.2
      omega
    rw [decide_eq_true_eq]
    rcases List.mem_cons.1 hy' with rfl | h
    · unfold Separator at hk; omega
    · rw [← List.cons_append] at h
      rcases List.mem_append.1 h with h | h
      · exact dig (hd y h)
      · exact hr y h
  have hmk : D.mkVal K (k :: v) = .error .value := by
    rcases hK' with rfl | rfl | rfl <;> simp only [mkVal, hn] <;> rfl
  unfold text2words
  simp only [List.length_cons]
  unfold lexAux
  rw [hl]
  simp only
  rw [hK]
  simp only
  rw [hv]
  simp only
  rw [hmk]

end Decimals

open Decimals in
/-- **C100** (separators): in an ASCII text a separator between a letter with a number and its digits raises `ValueError`. -/
theorem C100_separator (D : Decimals) (c k : Char) (ds r : List Char) (hc : c.isAlpha = true) (hT : c.toUpper ≠ 'T') (hO : c.toUpper ≠ 'O')
    (hk : Separator k) (hd : ∀ x ∈ ds, x.isDigit = true) (hne : ds ≠ []) (hr : ∀ x ∈ r, x.toNat < 128) :
    D.text2words (c :: k :: (ds ++ r)) = .error .value :=
  D.text_separator c k ds r hc hT hO hk hd hne hr

open Decimals in
/-- **C100** (blocks): the text of a line cannot raise that `ValueError`, since all blanks have become spaces before. -/
theorem C100_clean (t : List Char) : ∀ c ∈ cleanText t, ¬ Separator c := by
  have h : ∀ s : List Char, ∀ c ∈ collapse s, ¬ Separator c := by
    intro s
    induction s with
    | nil => intro c hc; cases hc
    | cons x s ih =>
      intro c hc
      unfold collapse at hc
      have hsp : ¬ Separator ' ' := by unfold Separator; decide
      split_ifs at hc with hx
      · split at hc
        · split_ifs at hc
          · exact ih c hc
          · rcases List.mem_cons.1 hc with rfl | hc
            · exact hsp
            · exact ih c hc
        · simp only [List.mem_cons, List.not_mem_nil, or_false] at hc
          subst hc; exact hsp
      · rcases List.mem_cons.1 hc with rfl | hc
        · intro hs
          apply hx
          unfold Separator at hs
          unfold isSpace
          have : (28 ≤ c.toNat && c.toNat ≤ 32) = true := by
            simp only [Bool.and_eq_true, decide_eq_true_eq]; omega
          simp [hs.1, show c.toNat ≤ 32 by omega]
        · exact ih c hc
  exact h _


/-! ## Instances -/

/-- ASCII digits and those of U+0660 to U+0669 (Arabic-Indic). -/
def arabicDigits : Decimals where
  digit c := if c.isDigit then some (c.toNat - 48) else if 0x660 ≤ c.toNat ∧ c.toNat ≤ 0x669 then some (c.toNat - 0x660) else none
  ascii := by
    intro c hc
    split_ifs with h1 h2
    · rfl
    · omega
    · rfl
  range := by
    intro c d h
    split_ifs at h with h1 h2
    · simp only [Option.some.injEq] at h
      simp only [Char.isDigit, Bool.and_eq_true, decide_eq_true_eq] at h1
      have h' : c.toNat ≤ 57 := UInt32.le_iff_toNat_le.1 h1.2
      omega
    · simp only [Option.some.injEq] at h
      omega
  space := by
    intro c hc
    have h1 : ¬ c.isDigit = true := by
      intro h; rw [not_space_of_digit h] at hc; cases hc
    have h2 : ¬ (0x660 ≤ c.toNat ∧ c.toNat ≤ 0x669) := by
      intro h
      simp only [isSpace, Bool.or_eq_true, Bool.and_eq_true, decide_eq_true_eq, beq_iff_eq] at hc
      omega
    rw [if_neg h1, if_neg h2]
  letters := by decide

/-- `G١ ſ٣٥` is `G1 S35`. -/
example : arabicDigits.text2words "G١ ſ٣٥".toList = .ok [⟨'G', .num 1⟩, ⟨'S', .num 35⟩] := by decide +kernel

example : (arabicDigits.text2words "G١ ſ٣٥".toList).map (List.map arabicDigits.foldWord) = text2words "G1 S35".toList := by
  rw [C100_fold arabicDigits _ (by decide +kernel)]
  decide +kernel

/-- The value of T keeps its characters. -/
example : arabicDigits.text2words "T٣".toList = .ok [⟨'T', .str "٣".toList⟩] := by decide +kernel

example : arabicDigits.text2words "G1 X2.5 (no comment)".toList = text2words "G1 X2.5 (no comment)".toList :=
  C100_ascii arabicDigits _ (by decide +kernel)

/-- `G1 K5` with the Kelvin sign. -/
example : arabicDigits.text2words ("G1 ".toList ++ Char.ofNat 0x212A :: "5".toList) = .error .key :=
  C100_key arabicDigits _ _ _ (.inr rfl) [⟨'G', .num 1⟩] (by decide +kernel) (by decide) (by decide)

/-- `X`, U+001F, `12 Y3`: refused as a text, read as a block. -/
example : arabicDigits.text2words ('X' :: Char.ofNat 31 :: ("12".toList ++ " Y3".toList)) = .error .value :=
  C100_separator arabicDigits 'X' _ _ _ (by decide) (by decide) (by decide) (by unfold Decimals.Separator; decide) (by decide) (by decide) (by decide)

example : arabicDigits.text2words (cleanText ('X' :: Char.ofNat 31 :: "12 Y3".toList)) = .ok [⟨'X', .num 12⟩, ⟨'Y', .num 3⟩] := by
  decide +kernel

example : ∀ c ∈ cleanText ('X' :: Char.ofNat 31 :: "12 Y3".toList), ¬ Decimals.Separator c := C100_clean _

end Pygcode
