import Verif.Model.Words

/-!
# Binary floating point

The rest of the model computes with exact rationals.  This module models what CPython really does with
the value of a word between reading and printing it: values are binary64 numbers with a sign (so there
is a negative zero), `float(text)`, `round` and every arithmetic operation give the double nearest to
the exact result, ties to even, and `%g` prints the exact value of the double with six significant
digits.  Simplification: no overflow (values from 2^1024 on would be infinite) and no `nan`.
-/

namespace Pygcode

/-- A finite Python `float`: sign and magnitude. -/
structure F64 where
  neg : Bool
  mag : ℚ
  deriving DecidableEq, Repr

/-- The number a `float` stands for. -/
def F64.val (x : F64) : ℚ := if x.neg then -x.mag else x.mag

/-- Distance of neighbouring doubles around the positive number `a` (52 fraction bits, smallest
exponent -1022). -/
def ulp (a : ℚ) : ℚ := 2 ^ (max (Int.log 2 a) (-1022) - 52)

/-- The double nearest to `a ≥ 0`, ties to even. -/
def nearest (a : ℚ) : ℚ := roundHalfEven (a / ulp a) * ulp a

/-- The `float` nearest to a number (a zero result of `float` arithmetic is positive; simplification:
also in `-0.0 + -0.0` and `-0.0 - 0.0`, which are negative zeros in Python). -/
def F64.of (q : ℚ) : F64 := ⟨decide (q < 0), nearest |q|⟩

/-- `float(text)` for a text matched by `REGEX_FLOAT` or `REGEX_CODE` (words.py:83-84,
dialects/linuxcnc.py:21-24). -/
def F64.read (s : List Char) : F64 :=
  ⟨(s.dropWhile isSpace).head? == some '-', nearest |numText s|⟩

/-- `round(x, d)`: CPython rounds the exact value of the double to `d` decimals, ties to even, and
converts the decimal back; the sign is kept, also that of a zero. -/
def F64.round (d : ℕ) (x : F64) : F64 := ⟨x.neg, nearest (roundPlaces d x.mag)⟩

/-- `"%g" % x`, `"{0:g}".format(x)`. -/
def F64.fmtG (x : F64) : List Char := (if x.neg then ['-'] else []) ++ Pygcode.fmtG x.mag

/-- `CLEAN_FLOAT` (dialects/linuxcnc.py:33). -/
def F64.cleanFloat (x : F64) : List Char := (x.round 3).fmtG

/-- `CLEAN_CODE` (dialects/linuxcnc.py:27-30, 34). -/
def F64.cleanCode (x : F64) : List Char := if x.val < 10 then '0' :: x.fmtG else x.fmtG

/-- `x + y`. -/
def F64.add (x y : F64) : F64 := F64.of (x.val + y.val)

/-- `x - y`. -/
def F64.sub (x y : F64) : F64 := F64.of (x.val - y.val)

/-- One axis of `Machine.move_to` in incremental mode (machine.py:549-553) with `float`s: the absolute
coordinate `x` is turned into work coordinates (`abs2work`, machine.py:521-525; `o` and `t` are the
offsets of the coordinate system and the temporary ones), `d` is added, and the result is turned back
(`work2abs`, machine.py:527-531). -/
def F64.moveBy (o t x d : F64) : F64 := ((((x.sub o).sub t).add d).add t).add o

/-- One axis of `Machine.move_to` in absolute mode (machine.py:554-557) with `float`s; `c` is the given
coordinate, if any. -/
def F64.moveTo (o t x : F64) (c : Option F64) : F64 := ((c.getD ((x.sub o).sub t)).add t).add o

end Pygcode
