import Verif.Model.Py

/-!
# Words: `src/pygcode/words.py` and the LinuxCNC word table `src/pygcode/dialects/linuxcnc.py`
-/

namespace Pygcode

/-- The five kinds of rows of `WORD_MAP` (dialects/linuxcnc.py:37-213): value class, value regex
and cleaning function always come in one of these combinations.
* `flt`: `cls=float`, `REGEX_FLOAT`, `CLEAN_FLOAT`
* `code`: `cls=float`, `REGEX_CODE`, `CLEAN_CODE` (G, M)
* `posint`: `cls=int`, `REGEX_POSITIVEINT`, `CLEAN_INT` (L, N)
* `name`: `cls=str`, `^.+$`, `CLEAN_NONE` (O)
* `tool`: `cls=str`, `REGEX_POSITIVEINT`, `CLEAN_NONE` (T) -/
inductive VKind
  | flt | code | posint | name | tool
  deriving DecidableEq, Repr

/-- `WORD_MAP` (dialects/linuxcnc.py:37-213); `none` = not a key. -/
def wordKind : Char → Option VKind
  | 'A' => some .flt     -- 42-47
  | 'B' => some .flt     -- 48-53
  | 'C' => some .flt     -- 54-59
  | 'D' => some .flt     -- 60-65
  | 'E' => some .flt     -- 67-72
  | 'F' => some .flt     -- 73-78
  | 'G' => some .code    -- 80-85
  | 'H' => some .flt     -- 87-92
  | 'I' => some .flt     -- 94-99
  | 'J' => some .flt     -- 100-105
  | 'K' => some .flt     -- 106-111
  | 'L' => some .posint  -- 113-118
  | 'M' => some .code    -- 120-125
  | 'N' => some .posint  -- 127-132
  | 'O' => some .name    -- 134-139
  | 'P' => some .flt     -- 141-146
  | 'Q' => some .flt     -- 148-153
  | 'R' => some .flt     -- 155-160
  | 'S' => some .flt     -- 162-167
  | 'T' => some .tool    -- 169-174
  | 'U' => some .flt     -- 176-181
  | 'V' => some .flt     -- 182-187
  | 'W' => some .flt     -- 188-193
  | 'X' => some .flt     -- 195-200
  | 'Y' => some .flt     -- 201-206
  | 'Z' => some .flt     -- 207-212
  | _ => none

/-- Value of a word: `float`/`int` values as exact rationals, `str` values as text. -/
inductive Val
  | num (q : ℚ)
  | str (s : List Char)
  deriving DecidableEq, Repr

/-- `Word` (words.py:8-88): a letter and a value. -/
structure Word where
  letter : Char
  val : Val
  deriving DecidableEq, Repr

/-- Numeric value, 0 for text values (only used for letters whose values are numbers). -/
def Word.num (w : Word) : ℚ :=
  match w.val with
  | .num q => q
  | .str _ => 0

/-! ## Value regexes (dialects/linuxcnc.py:21-24)

Each matcher returns the matched prefix and the rest; all of these regexes are anchored with `^`
and deterministic, so greedy matching needs no backtracking. -/

/-- `REGEX_POSITIVEINT = ^\s*\d+` (linuxcnc.py:23). -/
def matchInt (s : List Char) : Option (List Char × List Char) :=
  let ws := s.takeWhile isSpace
  let s1 := s.dropWhile isSpace
  let d := s1.takeWhile Char.isDigit
  if d = [] then none else some (ws ++ d, s1.dropWhile Char.isDigit)

/-- `REGEX_CODE = ^\s*\d+(\.\d)?` (linuxcnc.py:24). -/
def matchCode (s : List Char) : Option (List Char × List Char) :=
  let ws := s.takeWhile isSpace
  let s1 := s.dropWhile isSpace
  let d := s1.takeWhile Char.isDigit
  if d = [] then none
  else match s1.dropWhile Char.isDigit with
    | '.' :: c :: r => if c.isDigit then some (ws ++ d ++ ['.', c], r)
                       else some (ws ++ d, '.' :: c :: r)
    | r => some (ws ++ d, r)

/-- Optional `-`. -/
def matchMinus : List Char → List Char × List Char
  | '-' :: r => (['-'], r)
  | r => ([], r)

/-- `REGEX_FLOAT = ^\s*-?(\d+\.?\d*|\.\d+)` (linuxcnc.py:21). -/
def matchFloat (s : List Char) : Option (List Char × List Char) :=
  let ws := s.takeWhile isSpace
  let (sg, s2) := matchMinus (s.dropWhile isSpace)
  let d := s2.takeWhile Char.isDigit
  if d ≠ [] then
    match s2.dropWhile Char.isDigit with
    | '.' :: r => some (ws ++ sg ++ d ++ '.' :: r.takeWhile Char.isDigit, r.dropWhile Char.isDigit)
    | r => some (ws ++ sg ++ d, r)
  else
    match s2 with
    | '.' :: r =>
      if r.takeWhile Char.isDigit = [] then none
      else some (ws ++ sg ++ '.' :: r.takeWhile Char.isDigit, r.dropWhile Char.isDigit)
    | _ => none

/-- The program-name regex `^.+$` (linuxcnc.py:136): the first line, which must be all of the
text except possibly one final newline (`$` also matches just before it). -/
def matchName (s : List Char) : Option (List Char × List Char) :=
  let v := s.takeWhile (· != '\n')
  let r := s.dropWhile (· != '\n')
  if v = [] then none
  else if r = [] ∨ r = ['\n'] then some (v, r) else none

/-- `word_map[letter].value_regex.search(text)` (words.py:111-112). -/
def matchValue : VKind → List Char → Option (List Char × List Char)
  | .flt => matchFloat
  | .code => matchCode
  | .posint => matchInt
  | .tool => matchInt
  | .name => matchName

/-- `self._value_class(new_value)` for matched text (words.py:83-84): `float(text)`, `int(text)`
or the text itself (with its leading blanks, for T). -/
def mkVal : VKind → List Char → Val
  | .flt, v => .num (numText v)
  | .code, v => .num (numText v)
  | .posint, v => .num (numText v)
  | .tool, v => .str v
  | .name, v => .str v

/-- A character matched by `[%s]` with `re.IGNORECASE` in `next_word` (words.py:100). -/
def isWordLetter (c : Char) : Bool := (wordKind c.toUpper).isSome

/-- `next_word.search(text)` with `^.*?(?P<letter>[…])` (words.py:100, 104-108): skip characters
that are not word letters (`.` does not match a newline); returns the upper-cased letter and the
text after it. -/
def nextLetter : List Char → Option (Char × List Char)
  | [] => none
  | c :: cs =>
    if isWordLetter c then some (c.toUpper, cs)
    else if c = '\n' then none
    else nextLetter cs

/-- The loop of `text2words` (words.py:102-125), with fuel. -/
def lexAux : ℕ → List Char → Except Err (List Word)
  | 0, _ => .error .fuel
  | n + 1, t =>
    match nextLetter t with
    | none => if t.all isSpace then .ok [] else .error .wordStr     -- 119-125
    | some (l, r) =>
      match wordKind l with
      | none => .error .key
      | some k =>
        match matchValue k r with
        | none => .error .wordStr                                   -- 113-114
        | some (v, rest) =>
          match lexAux n rest with
          | .error e => .error e
          | .ok ws => .ok (⟨l, mkVal k v⟩ :: ws)

/-- `list(text2words(text))` (words.py:91-125).  Each round consumes at least the letter, so
`length + 1` rounds suffice (proved: the `fuel` error never occurs). -/
def text2words (t : List Char) : Except Err (List Word) := lexAux (t.length + 1) t

/-- `str2word` (words.py:128-134). -/
def str2word (t : List Char) : Except Err (Option Word) :=
  match text2words t with
  | .error e => .error e
  | .ok [] => .ok none
  | .ok [w] => .ok (some w)
  | .ok _ => .error .wordStr

/-- `words2dict` (words.py:137-147): `dict` of (letter, value) pairs, later pairs override. -/
def words2dict (ws : List Word) (limit : Option (List Char)) (l : Char) : Option Val :=
  (ws.filter (fun w => match limit with | none => true | some ls => ls.contains w.letter)).foldl
    (fun acc w => if w.letter = l then some w.val else acc) none

/-! ## Printing -/

/-- `_clean_codestr` (dialects/linuxcnc.py:27-30). -/
def cleanCode (q : ℚ) : List Char := if q < 10 then '0' :: fmtG q else fmtG q

/-- `CLEAN_FLOAT` (dialects/linuxcnc.py:33): `"{0:g}".format(round(v, 3))`. -/
def cleanFloat (q : ℚ) : List Char := fmtG (roundPlaces 3 q)

/-- `CLEAN_INT` (dialects/linuxcnc.py:35): `"%g" % v`. -/
def cleanInt (q : ℚ) : List Char := fmtG q

/-- `Word.value_str` (words.py:72-75), by the cleaning function of the letter's row. -/
def Word.valueStr (w : Word) : List Char :=
  match wordKind w.letter, w.val with
  | some .flt, .num q => cleanFloat q
  | some .code, .num q => cleanCode q
  | some .posint, .num q => cleanInt q
  | _, .str s => s
  | _, .num _ => []     -- not a well-formed word (see `Word.WF`)

/-- `Word.__str__` (words.py:34-38). -/
def Word.str (w : Word) : List Char := w.letter :: w.valueStr

/-- What `Word.__init__` guarantees (words.py:23-32, 83-84): the letter is a key of the table and
the value has the letter's Python class (`int` values are integers). -/
def Word.WF (w : Word) : Prop :=
  match wordKind w.letter, w.val with
  | some .flt, .num _ => True
  | some .code, .num _ => True
  | some .posint, .num q => ∃ n : ℤ, q = n
  | some .name, .str _ => True
  | some .tool, .str _ => True
  | _, _ => False

/-- Truncation towards zero, `int(x)` of a float. -/
def truncQ (q : ℚ) : ℤ := if q < 0 then -⌊-q⌋ else ⌊q⌋

/-- `Word(letter, number)` (words.py:9-32): upper-cases the letter, `KeyError` for an unknown
one, converts the value.  Simplification: for T and O the number must be an `int`
(`str(2.0)` is `'2.0'` in Python); the model prints the integer part. -/
def Word.ofNum (letter : Char) (q : ℚ) : Except Err Word :=
  let l := letter.toUpper
  match wordKind l with
  | none => .error .key
  | some .flt => .ok ⟨l, .num q⟩
  | some .code => .ok ⟨l, .num q⟩
  | some .posint => .ok ⟨l, .num (truncQ q)⟩
  | some _ =>
    let n := truncQ q
    .ok ⟨l, .str ((if n < 0 then ['-'] else []) ++ Nat.toDigits 10 n.natAbs)⟩

/-! ## Comparison -/

/-- Lexicographic `<` on texts (Python compares strings by code point). -/
def strLt : List Char → List Char → Bool
  | _, [] => false
  | [], _ :: _ => true
  | a :: as, b :: bs => a.toNat < b.toNat || (a == b && strLt as bs)

/-- `<` on values.  Two words with the same letter have values of the same Python class, so the
mixed cases (a `TypeError` in Python 3) do not arise for well-formed words with one letter. -/
def Val.lt : Val → Val → Bool
  | .num a, .num b => a < b
  | .str a, .str b => strLt a b
  | _, _ => false

/-- `Word.__lt__` (words.py:47-48): tuple comparison `(letter, value) < (letter, value)`:
letters first; values only when the letters are equal. -/
def Word.lt (a b : Word) : Bool :=
  if a.letter = b.letter then a.val.lt b.val else a.letter.toNat < b.letter.toNat

/-- `Word.__gt__` (words.py:50-51). -/
def Word.gt (a b : Word) : Bool := Word.lt b a

/-- `Word.__le__` (words.py:53-54): tuple `<=` is: first differing component decides by `<=`,
equal tuples are `<=`. -/
def Word.le (a b : Word) : Bool := a == b || Word.lt a b

/-- `Word.__ge__` (words.py:56-57). -/
def Word.ge (a b : Word) : Bool := a == b || Word.lt b a

/-- `Word.__eq__` with a string on the right (words.py:60-63).  A blank string gives
`AttributeError` (`None.letter`). -/
def Word.eqText (w : Word) (t : List Char) : Except Err Bool :=
  match str2word t with
  | .error e => .error e
  | .ok none => .error .attribute
  | .ok (some w') => .ok (w.letter == w'.letter && w.val == w'.val)

end Pygcode
