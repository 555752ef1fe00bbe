import Verif.Model.Norm

/-!
# Options of `pygcode-norm` that are lists of words

The arguments of `--canned_codes` and `--rm_gcodes`.
-/

namespace Pygcode

/-- `self._value_class(new_value)` for a text (words.py:83-84): `float(text)`, `int(text)` (blanks
around the number are allowed) or the text itself.
Simplification: of the texts accepted by `float` and `int` only those with digits, one decimal point
and (for `float`) a minus sign are accepted here, not those with `+`, an exponent, `_`, `inf`, `nan`,
nor a negative number for L and N. -/
def valueOfText (k : VKind) (v : List Char) : Except Err Val :=
  match k with
  | .flt | .code =>
    match matchFloat v with
    | some (x, r) => if r.all isSpace then .ok (.num (numText x)) else .error .value
    | none => .error .value
  | .posint =>
    match matchInt v with
    | some (x, r) => if r.all isSpace then .ok (.num (numText x)) else .error .value
    | none => .error .value
  | .tool | .name => .ok (.str v)

/-- `Word(text)` (words.py:9-32): the first character is the letter, the rest the value.  An empty text
has no first character (`IndexError`), an unknown letter is not in the map (`KeyError`).
Simplification: `upper()` on ASCII letters only. -/
def Word.ofText : List Char → Except Err Word
  | [] => .error .index
  | c :: v =>
    match wordKind c.toUpper with
    | none => .error .key
    | some k =>
      match valueOfText k v with
      | .error e => .error e
      | .ok x => .ok ⟨c.toUpper, x⟩

/-- `re.split(r'\s*,\s*', text)` (pygcode-norm:75): `cur` is the piece being collected, in reverse, and
`skip` tells that blanks after a comma are being skipped. -/
def splitCommasFrom (skip : Bool) (cur : List Char) : List Char → List (List Char)
  | [] => [cur.reverse]
  | c :: cs =>
    if c = ',' then (cur.dropWhile isSpace).reverse :: splitCommasFrom true [] cs
    else if skip = true ∧ isSpace c = true then splitCommasFrom true cur cs
    else splitCommasFrom false (c :: cur) cs

/-- The pieces of the text. -/
def splitCommas (s : List Char) : List (List Char) := splitCommasFrom false [] s

/-- `word_list_type` (pygcode-norm:68-78), the set as a list. -/
def wordList (s : List Char) : Except Err (List Word) := (splitCommas s).mapM Word.ofText

/-- `DEFAULT_CANNED_CODES` (pygcode-norm:85): the words of the subclasses of `GCodeCannedCycle`, sorted,
as text. -/
def defaultCanned : List Char :=
  joinWith [','] ((((Cls.all.filter (fun c => c.isSub .cannedCycle)).filterMap
    (fun c => c.wordKey.map keyWord)).insertionSort (fun a b => Word.lt b a = false)).map Word.str)

end Pygcode
