import Verif.Model.Chars
import Verif.Model.Machine

/-!
# Modes from text

`Mode.__init__` (machine.py:292-300) for any `default_mode`: that of the class (machine.py:271-288), or the
option `--machine_mode` of pygcode-norm (lines 110-112, 229-230).
-/

namespace Pygcode

/-- `modeLines` with a bound on the number of matches. -/
def modeLinesAux : ℕ → List Char → List (List Char)
  | 0, _ => []
  | n + 1, t =>
    if t = [] then [[]]
    else
      (t.dropWhile isSpace).takeWhile (· != '\n') ::
        modeLinesAux n (((t.dropWhile isSpace).dropWhile (· != '\n')).dropWhile isSpace)

/-- The lines found by `re.finditer(r'\s*(?P<line>.*)\s*\n?', text)` (machine.py:298).  Each match skips
blanks and line breaks, takes the rest of the line, and skips blanks and line breaks again, up to the next
line; there is an empty match at the end of the text.  Every match but the last takes at least one character
(the bound does not matter: `modeLines_eq` in `Props/StartMode.lean`). -/
def modeLines (t : List Char) : List (List Char) := modeLinesAux (t.length + 1) t

/-- The gcodes of all lines (machine.py:297-299); an exception is that of the first line that raises. -/
def gcodesOfLines : List (List Char) → Except Err (List GCode)
  | [] => .ok []
  | l :: ls =>
    match Line.ofText l with
    | .error e => .error e
    | .ok ln =>
      match gcodesOfLines ls with
      | .error e => .error e
      | .ok gs => .ok (ln.block.gcodes ++ gs)

/-- `Mode()` for a class with `default_mode = text` (machine.py:292-300). -/
def Mode.ofText (t : List Char) : Except Err Mode :=
  match gcodesOfLines (modeLines t) with
  | .error e => .error e
  | .ok gs =>
    match Mode.null.setMode gs with
    | (_, some e) => .error e
    | (md, none) => .ok md

/-- `DEFAULT_MACHINE_MODE` (pygcode-norm:83). -/
def normDefaultMode : List Char := "G0 G54 G17 G21 G90 G94 M5 M9 T0 F0 S0".toList

/-- `default_mode` (machine.py:271-288). -/
def defaultModeText : List Char := chars! "
        G0      (movement: rapid)
        G17     (plane_selection: X/Y plane)
        G90     (distance: absolute position. ie: not \"turtle\" mode)
        G91.1   (arc_ijk_distance: IJK sets arc center vertex relative to current position)
        G94     (feed_rate_mode: feed-rate defined in units/min)
        G21     (units: mm)
        G40     (cutter_diameter_comp: no compensation)
        G49     (tool_length_offset: no offset)
        G54     (coordinate_system: 1)
        G61     (control_mode: exact path mode)
        G97     (spindle_speed_mode: RPM Mode)
        M5      (spindle: off)
        M9      (coolant: off)
        F0      (feed_rate: 0)
        S0      (spindle_speed: 0)
        T0      (tool: 0)
    "

end Pygcode
