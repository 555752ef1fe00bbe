import Verif.Model.Lines

/-!
# Words in texts with characters beyond ASCII: `text2words` (`src/pygcode/words.py:91-125`)

`Model/Words.lean` reads ASCII letters and digits only.  Python's regexes and number conversions go further:

* `\d` matches every decimal digit of Unicode, and `float()` and `int()` read it with its value;
* `[A-Z]` with `re.IGNORECASE` also matches `İ` (U+0130), `ı` (U+0131), `ſ` (U+017F) and `K` (U+212A, Kelvin sign);
  `.upper()` of these is `İ`, `I`, `S` and `K` (U+212A), so two of them are not keys of `WORD_MAP`;
* `\s` matches U+001C to U+001F, but `float()` and `int()` skip these only in texts that are not all ASCII.

Which characters are decimal digits depends on the Unicode version of the interpreter, so it is a parameter.
-/

namespace Pygcode

/-- Decimal digits of the interpreter's Unicode version, with their values. -/
structure Decimals where
  digit : Char → Option ℕ
  /-- those below U+0080 are `0` to `9` -/
  ascii : ∀ c, c.toNat < 128 → digit c = if c.isDigit then some (c.toNat - 48) else none
  range : ∀ c d, digit c = some d → d < 10
  /-- digits are neither blanks nor letters -/
  space : ∀ c, isSpace c = true → digit c = none
  letters : ∀ c ∈ [Char.ofNat 0x130, Char.ofNat 0x131, Char.ofNat 0x17F, Char.ofNat 0x212A], digit c = none

namespace Decimals
variable (D : Decimals)

/-- `\d` -/
def isDigit (c : Char) : Bool := (D.digit c).isSome

/-- Upper case of a character that `[A-Z]` matches with `re.IGNORECASE`; `none` = not matched (words.py:100, 108). -/
def letter (c : Char) : Option Char :=
  if c.isAlpha then some c.toUpper
  else if c = Char.ofNat 0x131 then some 'I'
  else if c = Char.ofNat 0x17F then some 'S'
  else if c = Char.ofNat 0x130 ∨ c = Char.ofNat 0x212A then some c
  else none

/-- `next_word.search(text)` (words.py:100, 104-109). -/
def nextLetter : List Char → Option (Char × List Char)
  | [] => none
  | c :: cs =>
    match letter c with
    | some l => some (l, cs)
    | none => if c = '\n' then none else nextLetter cs

/-- `REGEX_POSITIVEINT = ^\s*\d+` (linuxcnc.py:23). -/
def matchInt (s : List Char) : Option (List Char × List Char) :=
  let ws := s.takeWhile isSpace
  let s1 := s.dropWhile isSpace
  let d := s1.takeWhile D.isDigit
  if d = [] then none else some (ws ++ d, s1.dropWhile D.isDigit)

/-- `REGEX_CODE = ^\s*\d+(\.\d)?` (linuxcnc.py:24). -/
def matchCode (s : List Char) : Option (List Char × List Char) :=
  let ws := s.takeWhile isSpace
  let s1 := s.dropWhile isSpace
  let d := s1.takeWhile D.isDigit
  if d = [] then none
  else match s1.dropWhile D.isDigit with
    | '.' :: c :: r => if D.isDigit c then some (ws ++ d ++ ['.', c], r)
                       else some (ws ++ d, '.' :: c :: r)
    | r => some (ws ++ d, r)

/-- `REGEX_FLOAT = ^\s*-?(\d+\.?\d*|\.\d+)` (linuxcnc.py:21). -/
def matchFloat (s : List Char) : Option (List Char × List Char) :=
  let ws := s.takeWhile isSpace
  let (sg, s2) := matchMinus (s.dropWhile isSpace)
  let d := s2.takeWhile D.isDigit
  if d ≠ [] then
    match s2.dropWhile D.isDigit with
    | '.' :: r => some (ws ++ sg ++ d ++ '.' :: r.takeWhile D.isDigit, r.dropWhile D.isDigit)
    | r => some (ws ++ sg ++ d, r)
  else
    match s2 with
    | '.' :: r =>
      if r.takeWhile D.isDigit = [] then none
      else some (ws ++ sg ++ '.' :: r.takeWhile D.isDigit, r.dropWhile D.isDigit)
    | _ => none

/-- `word_map[letter].value_regex.search(text)` (words.py:111-112). -/
def matchValue : VKind → List Char → Option (List Char × List Char)
  | .flt => D.matchFloat
  | .code => D.matchCode
  | .posint => D.matchInt
  | .tool => D.matchInt
  | .name => matchName

/-- A digit as ASCII digit, other characters as they are. -/
def toAscii (c : Char) : Char :=
  match D.digit c with
  | some d => Nat.digitChar d
  | none => c

/-- `float(text)` or `int(text)` of matched text (words.py:83-84): digits by their values; the separators U+001C to U+001F
are not skipped in ASCII texts. -/
def number (v : List Char) : Except Err ℚ :=
  if v.all (fun c => c.toNat < 128) && v.any (fun c => 28 ≤ c.toNat && c.toNat ≤ 31) then .error .value
  else .ok (numText (v.map D.toAscii))

/-- `self._value_class(new_value)` (words.py:83-84). -/
def mkVal : VKind → List Char → Except Err Val
  | .flt, v => (D.number v).map .num
  | .code, v => (D.number v).map .num
  | .posint, v => (D.number v).map .num
  | .tool, v => .ok (.str v)
  | .name, v => .ok (.str v)

/-- The loop of `text2words` (words.py:102-125), with fuel. -/
def lexAux : ℕ → List Char → Except Err (List Word)
  | 0, _ => .error .fuel
  | n + 1, t =>
    match nextLetter t with
    | none => if t.all isSpace then .ok [] else .error .wordStr     -- 119-125
    | some (l, r) =>
      match wordKind l with
      | none => .error .key                                         -- 111
      | some k =>
        match D.matchValue k r with
        | none => .error .wordStr                                   -- 113-114
        | some (v, rest) =>
          match D.mkVal k v with
          | .error e => .error e                                    -- 117
          | .ok x =>
            match lexAux n rest with
            | .error e => .error e
            | .ok ws => .ok (⟨l, x⟩ :: ws)

/-- `list(text2words(text))` (words.py:91-125). -/
def text2words (t : List Char) : Except Err (List Word) := D.lexAux (t.length + 1) t

end Decimals
end Pygcode
