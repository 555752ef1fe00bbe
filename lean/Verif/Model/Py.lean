import Mathlib.Data.Rat.Floor
import Mathlib.Data.Int.Log

/-!
# Python primitives used by the model

Exceptions as values, the regex class `\s`, decimal text, `round` and the `%g` format.
-/

namespace Pygcode

/-- Exception classes that can escape from the modelled code.
`wordStr`, `param`, `invalidAxis`, `invalidState` are those of `src/pygcode/exceptions.py:1-18`
(`GCodeWordStrError`, `GCodeParameterError`, `MachineInvalidAxis`, `MachineInvalidState`);
the others are Python built-ins.  `fuel` is not a Python exception: it marks the artificial fuel
of a modelled loop running out (it is proved unreachable where it matters). -/
inductive Err
  | wordStr | param | invalidAxis | invalidState
  | assertion | attribute | type | key | name | notImpl | zeroDiv | value | index | runtime | fuel
  deriving DecidableEq, Repr

/-- `\s` of Python's `re` for `str` patterns (= `str.isspace`), all code points. -/
def isSpace (c : Char) : Bool :=
  let n := c.toNat
  (9 ≤ n && n ≤ 13) || (28 ≤ n && n ≤ 32) || n == 0x85 || n == 0xA0 || n == 0x1680 ||
  (0x2000 ≤ n && n ≤ 0x200A) || n == 0x2028 || n == 0x2029 || n == 0x202F || n == 0x205F ||
  n == 0x3000

/-- `s.rstrip("\n")`. -/
def rstripNewlines (s : List Char) : List Char := (s.reverse.dropWhile (· == '\n')).reverse

/-- Value of the text of a (matched) number, as `float(text)` computes it, exactly.
Leading blanks are skipped, an optional `-`, digits, optionally `.` and digits.
Simplification: the result is the exact decimal value, not the nearest binary64. -/
def numText (s : List Char) : ℚ :=
  let s1 := s.dropWhile isSpace
  match s1 with
  | '-' :: r => - unsigned r
  | r => unsigned r
where
  /-- digits, optionally `.` and digits -/
  unsigned (r : List Char) : ℚ :=
    let i := r.takeWhile Char.isDigit
    match r.dropWhile Char.isDigit with
    | '.' :: f =>
      let f := f.takeWhile Char.isDigit
      (Nat.ofDigitChars 10 (i ++ f) 0 : ℚ) / 10 ^ f.length
    | _ => (Nat.ofDigitChars 10 i 0 : ℚ)

/-- Round to the nearest integer, ties to even: the rounding used by Python's `round` and by
float formatting.  (On exact values; Python applies it to the binary64 value.) -/
def roundHalfEven {K : Type*} [Field K] [LinearOrder K] [FloorRing K] (q : K) : ℤ :=
  let f := ⌊q⌋
  let d := q - (f : K)
  if d < 1 / 2 then f
  else if 1 / 2 < d then f + 1
  else if f % 2 = 0 then f else f + 1

/-- `round(v, d)` for `d ≥ 0`. -/
def roundPlaces {K : Type*} [Field K] [LinearOrder K] [FloorRing K] (d : ℕ) (v : K) : K :=
  (roundHalfEven (v * 10 ^ d) : K) / 10 ^ d

/-- Remove trailing `0` characters. -/
def stripZeros (l : List Char) : List Char := (l.reverse.dropWhile (· == '0')).reverse

/-- Decimal digits of `r`, padded on the left with zeros to `p` characters. -/
def padDigits (p r : ℕ) : List Char :=
  let d := Nat.toDigits 10 r
  List.replicate (p - d.length) '0' ++ d

/-- Fixed-point text of `N / 10^p` without trailing zeros (and without a trailing point). -/
def fixedStr (N p : ℕ) : List Char :=
  let f := stripZeros (padDigits p (N % 10 ^ p))
  Nat.toDigits 10 (N / 10 ^ p) ++ (if f = [] then [] else '.' :: f)

/-- Six significant digits of a positive number: `(m, e)` with `a ≈ m * 10^(e-5)`,
`10^5 ≤ m < 10^6`. -/
def sig6 (a : ℚ) : ℕ × ℤ :=
  let e := Int.log 10 a
  let m := (roundHalfEven (a / 10 ^ (e - 5))).toNat
  if m = 10 ^ 6 then (10 ^ 5, e + 1) else (m, e)

/-- Exponent field of `%e`: sign and at least two digits. -/
def expStr (e : ℤ) : List Char :=
  (if e < 0 then '-' else '+') :: padDigits 2 e.natAbs

/-- `"%g" % a` for a positive number: six significant digits, fixed notation when the exponent
is in `[-4, 6)`, else exponent notation; trailing zeros removed. -/
def fmtGPos (a : ℚ) : List Char :=
  let (m, e) := sig6 a
  if -4 ≤ e ∧ e < 6 then fixedStr m (5 - e).toNat
  else fixedStr m 5 ++ 'e' :: expStr e

/-- `"%g" % q` (and `"{0:g}".format(q)`).
Simplification: Python prints negative zero as `-0`; a rational has no negative zero. -/
def fmtG (q : ℚ) : List Char :=
  if q = 0 then ['0']
  else if q < 0 then '-' :: fmtGPos (-q)
  else fmtGPos q

/-- `sep.join(parts)`. -/
def joinWith (sep : List Char) : List (List Char) → List Char
  | [] => []
  | [x] => x
  | x :: y :: r => x ++ sep ++ joinWith sep (y :: r)

end Pygcode
