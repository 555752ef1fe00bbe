import Verif.Model.Norm
import Verif.Model.Chars

/-!
# The texts of the exceptions raised while reading a block and processing it

The other model files only keep the class of an exception (`Err`).  The functions here go through the
same steps and return the text passed to the exception, or nothing when none is raised there.
-/

namespace Pygcode
namespace Msg

/-- `repr(word)` (words.py:40-44). -/
def wordRepr (w : Word) : List Char := chars! "<Word: " ++ w.str ++ ['>']

/-- `repr(gcode)` (gcodes.py:185-196). -/
def gcodeRepr (g : GCode) : List Char := NormOpts.reprText g

/-- `repr(mode)` for an instance of `Mode` itself (machine.py:356-362). -/
def modeRepr (m : Mode) : List Char := chars! "<Mode: " ++ m.str ++ ['>']

/-- `str` of a list, its elements' `repr` given. -/
def listText (rs : List (List Char)) : List Char := ['['] ++ joinWith [',', ' '] rs ++ [']']

/-- "word '%s' value invalid" (words.py:114). -/
def badValue (l : Char) : List Char := chars! "word '" ++ [l] ++ chars! "' value invalid"

/-- "block code remaining '%s'" (words.py:125). -/
def remaining (t : List Char) : List Char := chars! "block code remaining '" ++ t ++ ['\'']

/-- The text of the exception of `text2words` (words.py:102-125), with fuel. -/
def lexAux : ℕ → List Char → Option (List Char)
  | 0, _ => none
  | n + 1, t =>
    match nextLetter t with
    | none => if t.all isSpace then none else some (remaining t)      -- 122-125
    | some (l, r) =>
      match wordKind l with
      | none => none
      | some k =>
        match matchValue k r with
        | none => some (badValue l)                                   -- 113-114
        | some (_, rest) => lexAux n rest

/-- The text of the exception of `text2words` (words.py:91-125). -/
def text2words (t : List Char) : Option (List Char) := lexAux (t.length + 1) t

/-- The text of the exception of `str2word` (words.py:128-134). -/
def str2word (t : List Char) : Option (List Char) :=
  match Pygcode.text2words t with
  | .error _ => text2words t
  | .ok [] => none
  | .ok [_] => none
  | .ok _ => some (chars! "more than one word given")

/-- "invalid parameter for %s: %s" (gcodes.py:252). -/
def invalidParam (c : Cls) (w : Word) : List Char :=
  chars! "invalid parameter for " ++ c.pyName.toList ++ chars! ": " ++ w.str

/-- "parameter defined twice: %s -> %s" (gcodes.py:254). -/
def definedTwice (a b : Word) : List Char :=
  chars! "parameter defined twice: " ++ a.str ++ chars! " -> " ++ b.str

/-- The text of the exception of `add_parameter` (gcodes.py:245-256). -/
def addParam (g : GCode) (w : Word) : Option (List Char) :=
  if !g.cls.params.contains w.letter then some (invalidParam g.cls w)
  else
    match g.param w.letter with
    | some a => some (definedTwice a w)
    | none => none

/-- The text of the exception of adding parameters one after the other (gcodes.py:178-181). -/
def addAll : GCode → List Word → Option (List Char)
  | _, [] => none
  | g, w :: r =>
    match addParam g w with
    | some t => some t
    | none => addAll { g with params := g.params ++ [w] } r

/-- The text of the exception of `words2gcodes` (gcodes.py:1516-1523): from the first gcode that cannot
be made. -/
def words2gcodes (ws : List Word) : Option (List Char) :=
  build (link (infoList ws)) 0 (link (infoList ws))
where
  /-- creation of the gcode instances (gcodes.py:1516-1523) -/
  build (infos : List Info) : ℕ → List Info → Option (List Char)
    | _, [] => none
    | i, p :: r =>
      match p.cls with
      | none => build infos (i + 1) r
      | some c =>
        match addAll ⟨c, p.word, [], false⟩ (paramMap infos (some i)) with
        | some t => some t
        | none => build infos (i + 1) r

/-- The text of the exception of `text2gcodes` (gcodes.py:1528-1538). -/
def text2gcodes (t : List Char) : Option (List Char) :=
  match Pygcode.text2words t with
  | .error _ => text2words t
  | .ok ws =>
    match Pygcode.words2gcodes ws with
    | .error _ => words2gcodes ws
    | .ok (_, unused) =>
      if unused = [] then none
      else some (chars! "gcode text not fully formed, unassigned parameters: " ++
        listText (unused.map wordRepr))

/-- "%s cannot be in the same block" (block.py:66-69, 75-78): the gcodes with the same
`modal_group` (which may be `None`) as `g`. -/
def sameBlock (all : List GCode) (g : GCode) : List Char :=
  listText ((all.filter (fun x => x.cls.group == g.cls.group)).map gcodeRepr) ++
    chars! " cannot be in the same block"

/-- The text of the exception of `_assert_gcodes` (block.py:58-79). -/
def assertLoop (all : List GCode) : List Word → List ℕ → List GCode → Option (List Char)
  | _, _, [] => none
  | ws, grps, g :: r =>
    if ws.contains g.word then some (sameBlock all g)
    else
      match g.cls.group with
      | none => assertLoop all (g.word :: ws) grps r
      | some k => if grps.contains k then some (sameBlock all g)
                  else assertLoop all (g.word :: ws) (k :: grps) r

/-- The text of the exception of `Block(text)` (block.py:10-50). -/
def block (t : List Char) : Option (List Char) :=
  match Pygcode.text2words (cleanText t) with
  | .error _ => text2words (cleanText t)
  | .ok ws =>
    match Pygcode.words2gcodes ws with
    | .error _ => words2gcodes ws
    | .ok (gs, _) => assertLoop gs [] [] gs

/-- The two texts of machine.py:435-445: words not used by the modal gcode. -/
def unassigned (m : Mode) (un : List Word) : List Char :=
  if un.any (fun w => ['G', 'M'].contains w.letter) then
    chars! "unsupported gcode(s): '" ++ joinWith [' '] (un.map Word.str) ++ chars! "' (machine mode: " ++
      modeRepr m ++ [')']
  else
    chars! "modal parameters '" ++ joinWith [' '] (un.map Word.str) ++
      chars! "' cannot be assigned when in mode: " ++ modeRepr m

/-- The text of the exception of `modal_gcode` (machine.py:411-451), for machines whose mode is a
`Mode`. -/
def modalGcode (m : Machine) (mp : List Word) : Option (List Char) :=
  if mp = [] then none
  else
    match m.mode.motion with
    | none => if m.ignoreInvalid then none else some (unassigned m.mode mp)
    | some g =>
      match Pygcode.words2gcodes (g.word :: Machine.override g.params mp) with
      | .error _ => words2gcodes (g.word :: Machine.override g.params mp)
      | .ok (gs, un) =>
        if un ≠ [] ∧ m.ignoreInvalid = false then some (unassigned m.mode un)
        else
          match gs with
          | [] => none
          | [_] => none
          | _ => some (chars! "more than 1 modal code found")          -- 448

end Msg
end Pygcode
