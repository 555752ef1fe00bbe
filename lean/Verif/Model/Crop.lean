import Verif.Model.Machine

/-!
# The script `scripts/pygcode-crop`

The model takes the text of the range argument and the lines of the file, and gives the lines
printed and the exception raised, if any.
-/

namespace Pygcode
open Machine

/-! ## The range argument (pygcode-crop:34-129) -/

/-- The comparisons of `CMP_MAP` (pygcode-crop:69-77); `=` and `==` are the same. -/
inductive CmpOp
  | eq | ne | lt | le | gt | ge
  deriving DecidableEq, Repr

/-- `CMP_MAP[cmp](a, b)` (pygcode-crop:69-77). -/
def CmpOp.test (o : CmpOp) (a b : ℚ) : Bool :=
  match o with
  | .eq => decide (a = b)
  | .ne => decide (a ≠ b)
  | .lt => decide (a < b)
  | .le => decide (a ≤ b)
  | .gt => decide (a > b)
  | .ge => decide (a ≥ b)

/-- A condition: parameter (upper case; `N` is the line number), comparison and value
(pygcode-crop:91-95). -/
structure Cond where
  param : Char
  op : CmpOp
  value : ℚ
  deriving DecidableEq, Repr

/-- `(==?|!=|<=?|>=?)` (pygcode-crop:83), longest match. -/
def matchOp : List Char → Option (CmpOp × List Char)
  | '=' :: '=' :: r => some (.eq, r)
  | '=' :: r => some (.eq, r)
  | '!' :: '=' :: r => some (.ne, r)
  | '<' :: '=' :: r => some (.le, r)
  | '<' :: r => some (.lt, r)
  | '>' :: '=' :: r => some (.ge, r)
  | '>' :: r => some (.gt, r)
  | _ => none

/-- `\s*(?P<value>-?\d+(\.\d+)?)\s*$` (pygcode-crop:84-86): the text of the number. -/
def matchNumber (s : List Char) : Option (List Char) :=
  let s1 := s.dropWhile isSpace
  let (sg, s2) := matchMinus s1
  let d := s2.takeWhile Char.isDigit
  if d = [] then none
  else
    match s2.dropWhile Char.isDigit with
    | '.' :: r =>
      if r.takeWhile Char.isDigit = [] then none
      else if (r.dropWhile Char.isDigit).all isSpace then
        some (sg ++ d ++ '.' :: r.takeWhile Char.isDigit)
      else none
    | r => if r.all isSpace then some (sg ++ d) else none

/-- The last part of `_cmp` (pygcode-crop:91-104): the value, and the check that line numbers are
integers. -/
def condOf (p : Char) (o : CmpOp) (s : List Char) : Option Cond :=
  match matchNumber s with
  | none => none
  | some v =>
    if p = 'N' ∧ (numText v).den ≠ 1 then none else some ⟨p, o, numText v⟩

/-- `_cmp(cmp_str)` (pygcode-crop:57-104); `none` is `ArgumentTypeError`.  Simplification: the
argument has no line breaks (at which `^` and `$` would match too). -/
def parseCond (t : List Char) : Option Cond :=
  match t.dropWhile isSpace with
  | [] => none
  | c :: r =>
    if ['A', 'B', 'C', 'N', 'X', 'Y', 'Z'].contains c.toUpper then
      match matchOp (r.dropWhile isSpace) with
      | none => none
      | some (o, r') => condOf c.toUpper o r'
    else
      match matchOp (c :: r) with
      | none => condOf 'N' .eq (c :: r)
      | some (o, r') => condOf 'N' o r'

/-- `text.split(sep)`. -/
def splitChar (sep : Char) : List Char → List (List Char)
  | [] => [[]]
  | c :: r =>
    if c = sep then [] :: splitChar sep r
    else
      match splitChar sep r with
      | [] => [[c]]     -- does not happen
      | x :: xs => (c :: x) :: xs

/-- `_cmp_group` (pygcode-crop:106-122): the conditions, `none` for an empty text (the default). -/
def parseGroup (t : List Char) : Option (Option (List Cond)) :=
  if t = [] then some none
  else
    match (splitChar ',' t).mapM parseCond with
    | none => none
    | some cs => some (some cs)

/-- The conditions of a range. -/
structure CropRange where
  /-- `none`: always true -/
  first : Option (List Cond)
  /-- `none`: never true -/
  last : Option (List Cond)
  deriving DecidableEq, Repr

/-- `range_type(value)` (pygcode-crop:34-129); `none` is `ArgumentTypeError`. -/
def rangeType (t : List Char) : Option CropRange :=
  match splitChar ':' t with
  | [a, b] =>
    match parseGroup a, parseGroup b with
    | some f, some l => some ⟨f, l⟩
    | _, _ => none
  | _ => none

/-- A condition at a line number and position (pygcode-crop:98-104). -/
def Cond.holds (c : Cond) (n : ℕ) (p : Position) : Except Err Bool :=
  if c.param = 'N' then .ok (c.op.test n c.value)
  else
    match Axis.ofLetter c.param with
    | none => .error .attribute
    | some a =>
      match p.get a with
      | .error e => .error e
      | .ok v => .ok (c.op.test v c.value)

/-- `all(x(n, pos) for x in cmp_list)` (pygcode-crop:122): up to the first false one. -/
def allHold (n : ℕ) (p : Position) : List Cond → Except Err Bool
  | [] => .ok true
  | c :: cs =>
    match c.holds n p with
    | .error e => .error e
    | .ok false => .ok false
    | .ok true => allHold n p cs

/-- `is_first` (pygcode-crop:125). -/
def CropRange.isFirst (r : CropRange) (n : ℕ) (p : Position) : Except Err Bool :=
  match r.first with
  | none => .ok true
  | some cs => allHold n p cs

/-- `is_last` (pygcode-crop:126). -/
def CropRange.isLast (r : CropRange) (n : ℕ) (p : Position) : Except Err Bool :=
  match r.last with
  | none => .ok false
  | some cs => allHold n p cs

/-! ## Cropping (pygcode-crop:181-245) -/

/-- Lines printed, and the exception raised, if any. -/
abbrev Printed := List (List Char) × Option Err

/-- Print `l` first. -/
def Printed.pre (l : List (List Char)) (r : Printed) : Printed := (l ++ r.1, r.2)

/-- `GCodeRapidMove(**coords)`. -/
def rapidTo (cs : List (Axis × ℚ)) : GCode :=
  ⟨.rapidMove, ⟨'G', .num 0⟩, cs.map (fun c => ⟨c.1.letter, .num c.2⟩), false⟩

/-- `print(Comment("machine mode before cropping"))` (pygcode-crop:213); `Comment` is the class for
brackets (comment.py:35). -/
def cropModeComment : List Char := Comment.str (.brackets "machine mode before cropping".toList)

/-- `print(Comment("traverse into position, up, over, and down"))` (pygcode-crop:222). -/
def cropMoveComment : List Char :=
  Comment.str (.brackets "traverse into position, up, over, and down".toList)

/-- The lines of pygcode-crop:210-214. -/
def cropModeLines (md : Mode) : List (List Char) := if md.str = [] then [] else [cropModeComment, md.str]

/-- The plane of pygcode-crop:217-219. -/
def cropPlane (md : Mode) : Cls :=
  match md.plane with
  | none => .selectXYPlane
  | some g => if g.cls.isSub .planeSelect then g.cls else .selectXYPlane

/-- What is printed before the first kept line (pygcode-crop:209-236).  The planes UV, WU and VW have
no normal axis: `getattr(…, None)` raises `TypeError`. -/
def cropPreamble (old : Machine) : Printed :=
  Printed.pre (cropModeLines old.mode ++ [cropMoveComment])
    (match (cropPlane old.mode).normalAxis.bind Axis.ofLetter with
    | none => ([], some .type)
    | some n =>
      match old.rangeMax.get n with
      | .error e => ([], some e)
      | .ok top =>
        Printed.pre [(rapidTo [(n, top)]).str]
          (match old.pos with
          | .error e => ([], some e)
          | .ok p =>
            Printed.pre [(rapidTo ((axisOrder'.filter (fun a => decide (a ∈ p.axes) &&
                (cropPlane old.mode).planeAxes.contains a.letter)).map (fun a => (a, p.val a)))).str]
              (match p.get n with
              | .error e => ([], some e)
              | .ok v => ([(rapidTo [(n, v)]).str, []], none))))
where
  /-- an order of the axes (the gcode prints its parameters sorted by letter) -/
  axisOrder' : List Axis := [.A, .B, .C, .U, .V, .W, .X, .Y, .Z]

/-- The loop (pygcode-crop:196-245), from the line with index `i` on; `pre` is `pre_crop`. -/
def cropLoop (first last : ℕ → Position → Except Err Bool) (pre : Bool) (i : ℕ) (m : Machine) :
    List (List Char) → Printed
  | [] => ([], none)
  | t :: ts =>
    match Line.ofText t with
    | .error e => ([], some e)
    | .ok l =>
      match m.processBlock l.block with
      | (_, some e) => ([], some e)
      | (m', none) =>
        match m'.pos with
        | .error e => ([], some e)
        | .ok p =>
          match (if pre then first (i + 1) p else .ok true) with
          | .error e => ([], some e)
          | .ok false => cropLoop first last pre (i + 1) m' ts
          | .ok true =>
            match (if pre then cropPreamble m.copy else ([], none)) with
            | (out, some e) => (out, some e)
            | (out, none) =>
              match last (i + 1) p with
              | .error e => (out, some e)
              | .ok true => (out, none)
              | .ok false => Printed.pre (out ++ [l.str]) (cropLoop first last false (i + 1) m' ts)

/-- The script, for a valid range. -/
def crop (r : CropRange) (lines : List (List Char)) : Printed :=
  cropLoop r.isFirst r.isLast true 0 newNull lines

end Pygcode
