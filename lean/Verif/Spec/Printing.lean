import Verif.Spec.WordGrammar

/-! # Specification: words that survive printing, and text made of printed words -/

namespace Pygcode.Spec

/-- Words whose printed form is claimed to be exact: float words with at most 3 decimals and 6
significant digits, codes with at most one decimal, counts below 10^6, tool and program names that
are value texts. -/
def Printable (w : Word) : Prop :=
  match kindOf w.letter, w.val with
  | some .flt, .num q => ∃ n : ℤ, ∃ d ≤ 3, |n| < 10 ^ 6 ∧ q = n / 10 ^ d
  | some .code, .num q => ∃ n : ℕ, ∃ d ≤ 1, n < 10 ^ 6 ∧ q = n / 10 ^ d
  | some .posint, .num q => ∃ n : ℕ, n < 10 ^ 6 ∧ q = n
  | some .tool, .str s => ValueText .tool s
  | some .name, .str s => ValueText .name s
  | _, _ => False

/-- Blanks other than a newline. -/
def Sep (l : List Char) : Prop := Blank l ∧ ∀ c ∈ l, c ≠ '\n'

/-- `Spaced ws t`: `t` is the printed words `ws` with arbitrary (possibly no) blanks before,
between and after them.  A program name (letter O) runs to the end of the text, so it can only be
last and nothing follows it. -/
inductive Spaced : List Word → List Char → Prop
  | nil {t} : Blank t → Spaced [] t
  | cons {sep w ws t} : Sep sep → w.letter ≠ 'O' → Spaced ws t → Spaced (w :: ws) (sep ++ w.str ++ t)
  | name {sep w} : Sep sep → w.letter = 'O' → Spaced [w] (sep ++ w.str)

/-- Same text up to the case of (ASCII) letters. -/
def SameUpToCase (t t' : List Char) : Prop :=
  List.Forall₂ (fun a b => a = b ∨ (IsLetter a ∧ IsLetter b ∧ a.toUpper = b.toUpper)) t t'

end Pygcode.Spec
