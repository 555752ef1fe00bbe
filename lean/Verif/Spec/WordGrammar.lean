import Verif.Model.Words

/-!
# Specification: the grammar of word text

Independent of the matchers of the model: value texts are languages (sets of character lists),
"the value" of a word is the longest prefix in the language, and its number is given by a
positional decimal denotation.
-/

namespace Pygcode.Spec

/-- Which kind of value a letter takes: G and M take codes, L and N counts, O a name, T a tool
name, every other letter of the alphabet a signed decimal. -/
def kindOf (c : Char) : Option VKind :=
  if c ∈ ['G', 'M'] then some .code
  else if c ∈ ['L', 'N'] then some .posint
  else if c = 'O' then some .name
  else if c = 'T' then some .tool
  else if c ∈ "ABCDEFHIJKPQRSUVWXYZ".toList then some .flt
  else none

/-- An (ASCII) letter, either case. -/
def IsLetter (c : Char) : Prop := (65 ≤ c.toNat ∧ c.toNat ≤ 90) ∨ (97 ≤ c.toNat ∧ c.toNat ≤ 122)

/-- All characters are decimal digits. -/
def Digits (l : List Char) : Prop := ∀ c ∈ l, c.isDigit = true

/-- All characters are blanks. -/
def Blank (l : List Char) : Prop := ∀ c ∈ l, isSpace c = true

/-- Value of a digit string (Horner). -/
def digitsVal (l : List Char) : ℕ := l.foldl (fun a c => 10 * a + (c.toNat - 48)) 0

/-- `d+` or `d+.` or `d+.d+` or `.d+` -/
def Decimal (b : List Char) : Prop :=
  (b ≠ [] ∧ Digits b) ∨
  (∃ i f, b = i ++ '.' :: f ∧ Digits i ∧ Digits f ∧ (i ≠ [] ∨ f ≠ []))

/-- The value texts allowed for a letter of kind `k`. -/
def ValueText : VKind → List Char → Prop
  | .flt, v => ∃ ws sg b, v = ws ++ sg ++ b ∧ Blank ws ∧ (sg = [] ∨ sg = ['-']) ∧ Decimal b
  | .code, v => ∃ ws i f, v = ws ++ i ++ f ∧ Blank ws ∧ i ≠ [] ∧ Digits i ∧
      (f = [] ∨ ∃ c, f = ['.', c] ∧ c.isDigit = true)
  | .posint, v => ∃ ws i, v = ws ++ i ∧ Blank ws ∧ i ≠ [] ∧ Digits i
  | .tool, v => ∃ ws i, v = ws ++ i ∧ Blank ws ∧ i ≠ [] ∧ Digits i
  | .name, v => v ≠ [] ∧ ∀ c ∈ v, c ≠ '\n'

/-- `v` is the longest value text at the start of `s`, leaving `rest`.
A name must reach the end of the text (a final newline aside). -/
def LongestValue (k : VKind) (s v rest : List Char) : Prop :=
  s = v ++ rest ∧ ValueText k v ∧
  (∀ v' rest', s = v' ++ rest' → ValueText k v' → v'.length ≤ v.length) ∧
  (k = .name → rest = [] ∨ rest = ['\n'])

/-- The number written by a text `blanks [-] digits [. digits]`. -/
def DenotesNum (v : List Char) (q : ℚ) : Prop :=
  ∃ ws i f, Blank ws ∧ Digits i ∧ Digits f ∧
    ∃ neg : Bool, ∃ dot : Bool, (dot = false → f = []) ∧
      v = ws ++ (if neg then ['-'] else []) ++ i ++ (if dot then '.' :: f else []) ∧
      q = (if neg then -1 else 1) * (digitsVal i + (digitsVal f : ℚ) / 10 ^ f.length)

/-- The value a value text stands for: a number, or (tools and names) the text itself. -/
def DenotesVal : VKind → List Char → Val → Prop
  | .tool, v, x => x = .str v
  | .name, v, x => x = .str v
  | _, v, x => ∃ q, x = .num q ∧ DenotesNum v q

/-- `Lexes t ws`: the text `t` is the sequence of words `ws`: each word is preceded by skipped
characters that are neither letters nor newlines; blanks may follow the last word. -/
inductive Lexes : List Char → List Word → Prop
  | nil {t} : Blank t → Lexes t []
  | cons {junk c s v rest k x ws} :
      (∀ j ∈ junk, ¬ IsLetter j ∧ j ≠ '\n') → IsLetter c → kindOf c.toUpper = some k →
      LongestValue k s v rest → DenotesVal k v x → Lexes rest ws →
      Lexes (junk ++ c :: s) (⟨c.toUpper, x⟩ :: ws)

end Pygcode.Spec
