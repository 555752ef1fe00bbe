import Verif.Model.Machine
import Verif.Model.Chars
import Verif.Model.Transform

/-!
# The repository's own tests, run on the model

The unit tests of `/repo/tests` record what the authors of the program expect of it.  The code cannot be
run here; these expectations are a check of the model that does not depend on how the source was read.
The assertions of the unit tests are evaluated below on the model.  (The second half of
`test_gcodes_abs2rel` is left out: in absolute mode the decorator hands the codes on, gcodes.py:1675-1679,
and `cannedInner` is used without `abs2rel`.)  `tools/corpus.py` does the same for the files of `tests/test-files`
(`tests/test_parsing.py`), the two shortest of which are checked here as well.
-/

namespace Pygcode

open Machine

namespace RepoTests

/-! ## tests/test_words.py -/

/-- `WordIterTests.test_iter1` (tests/test_words.py:13-21). -/
example : text2words (chars! "G01 Z-0.5 F100") =
    .ok [⟨'G', .num 1⟩, ⟨'Z', .num (-1/2)⟩, ⟨'F', .num 100⟩] := by decide +kernel

/-- `WordIterTests.test_iter2` (tests/test_words.py:23-34). -/
example : text2words (chars! "G02 X10.75 Y47.44 I-0.11 J-1.26 F70") =
    .ok [⟨'G', .num 2⟩, ⟨'X', .num (1075/100)⟩, ⟨'Y', .num (4744/100)⟩, ⟨'I', .num (-11/100)⟩,
      ⟨'J', .num (-126/100)⟩, ⟨'F', .num 70⟩] := by decide +kernel

/-- `WordTests_LinuxCNC.test_float` (tests/test_words.py:52-64): text, what is matched, what is left. -/
example : [(chars! "1.2", chars! "1.2", chars! ""),
    (chars! "1", chars! "1", chars! ""),
    (chars! "200", chars! "200", chars! ""),
    (chars! "0092", chars! "0092", chars! ""),
    (chars! "1.", chars! "1.", chars! ""),
    (chars! ".2", chars! ".2", chars! ""),
    (chars! "-1.234", chars! "-1.234", chars! ""),
    (chars! "-1.", chars! "-1.", chars! ""),
    (chars! "-.289", chars! "-.289", chars! ""),
    (chars! " 1.2", chars! " 1.2", chars! ""),
    (chars! "1.2e3", chars! "1.2", chars! "e3")].all (fun p => matchFloat p.1 == some (p.2.1, p.2.2)) = true ∧ matchFloat ['.'] = none := by decide +kernel

/-- `WordTests_LinuxCNC.test_code` (tests/test_words.py:66-78). -/
example : [(chars! "1.2", chars! "1.2", chars! ""),
    (chars! "1", chars! "1", chars! ""),
    (chars! "10", chars! "10", chars! ""),
    (chars! "02", chars! "02", chars! ""),
    (chars! "02.3", chars! "02.3", chars! ""),
    (chars! "1.", chars! "1", chars! "."),
    (chars! "03 ", chars! "03", chars! " "),
    (chars! " 2", chars! " 2", chars! ""),
    (chars! "30.12", chars! "30.1", chars! "2")].all (fun p => matchCode p.1 == some (p.2.1, p.2.2)) = true ∧ matchCode (chars! ".2") = none ∧ matchCode ['.'] = none := by
  decide +kernel

/-! ## tests/test_line.py -/

/-- Comment text, number of words and macro of a line. -/
def seen (t : List Char) : Option (Option (List Char) × ℕ × Option (List Char)) :=
  match Line.ofText t with
  | .error _ => none
  | .ok l => some (l.comment.map Comment.text, l.block.words.length, l.macro?)

/-- `LineCommentTests` (tests/test_line.py:15-51).  In the last case the comment's text still has its trailing
blank, which the test strips. -/
example : ([(chars! "G02 X10.75 Y47.44 I-0.11 J-1.26 F70 ; blah blah", some (chars! "blah blah"), 6, none),
    (chars! "G02 X10.75 Y47.44 I-0.11 J-1.26 F70 (blah blah)", some (chars! "blah blah"), 6, none),
    (chars! "G02 X10.75 (x coord) Y47.44 (y coord) I-0.11 J-1.26 F70 (eol)",
      some (chars! "x coord. y coord. eol"), 6, none),
    ([], none, 0, none), (chars! "%", none, 0, some (chars! "%")), (chars! "%%", none, 0, some (chars! "%%")),
    (chars! "% blah blah %", none, 0, some (chars! "% blah blah %")),
    (chars! "G02 X10.75 Y2 ; abc %something%", some (chars! "abc "), 3, some (chars! "%something%"))].all
      fun p => seen p.1 == some p.2) = true := by decide +kernel

/-! ## tests/test_gcodes.py -/

/-- `GCodeWordMappingTests.test_word_map_integrity` (tests/test_gcodes.py:19-23). -/
def mapIntegrity : Bool :=
  (maps.funList.all fun f => maps.wordMap.all fun e => !(f.1.test e.1))

/-- `GCodeModalGroupTests.test_modal_groups` (tests/test_gcodes.py:32-32): the groups of LinuxCNC's
documentation (those of M words raised by 100, as there). -/
def groupTable : List (Option ℕ × List (List Char)) := [
  (none, [chars! "G4", chars! "G10", chars! "G28", chars! "G30", chars! "G53", chars! "G92", chars! "G92.1", chars! "G92.2", chars! "G92.3"]),
  (some 1, [chars! "G0", chars! "G1", chars! "G2", chars! "G3", chars! "G33", chars! "G38.2", chars! "G38.3", chars! "G38.4"]),
  (some 1, [chars! "G38.5", chars! "G73", chars! "G76", chars! "G81", chars! "G82", chars! "G83", chars! "G85", chars! "G89"]),
  (some 2, [chars! "G17", chars! "G18", chars! "G19", chars! "G17.1", chars! "G18.1", chars! "G19.1"]),
  (some 3, [chars! "G90", chars! "G91"]),
  (some 4, [chars! "G90.1", chars! "G91.1"]),
  (some 5, [chars! "G93", chars! "G94", chars! "G95"]),
  (some 6, [chars! "G20", chars! "G21"]),
  (some 7, [chars! "G40", chars! "G41", chars! "G42", chars! "G41.1", chars! "G42.1"]),
  (some 8, [chars! "G43", chars! "G43.1", chars! "G49"]),
  (some 10, [chars! "G98"]),
  (some 12, [chars! "G54", chars! "G55", chars! "G56", chars! "G57", chars! "G58", chars! "G59", chars! "G59.1", chars! "G59.2", chars! "G59.3"]),
  (some 13, [chars! "G61", chars! "G61.1", chars! "G64"]),
  (some 14, [chars! "G96", chars! "G97"]),
  (some 15, [chars! "G7", chars! "G8"]),
  (some 104, [chars! "M0", chars! "M1", chars! "M2", chars! "M30", chars! "M60"]),
  (some 107, [chars! "M3", chars! "M4", chars! "M5"]),
  (some 108, [chars! "M7", chars! "M8", chars! "M9"]),
  (some 109, [chars! "M48", chars! "M49"])]

/-- The check of that table. -/
def groupsAgree : Bool :=
  (groupTable.all fun row => row.2.all fun t =>
    match text2words t with
    | .ok (w :: _) => (match wordClass w with
      | some c => c.group == row.1
      | none => false)
    | _ => false)

/-- `Words2GCodesTests.test_stuff` (tests/test_gcodes.py:88-98). -/
def stuff : Bool :=
  (match text2words (chars! "G1 X82.6892 Y-38.6339 F1500") with
    | .ok ws => (match words2gcodes ws with
      | .ok ([a, b], []) => a.word == ⟨'G', .num 1⟩ && a.get 'X' == .ok (some (.num (826892/10000))) &&
          a.get 'Y' == .ok (some (.num (-386339/10000))) && b.word == ⟨'F', .num 1500⟩
      | _ => false)
    | _ => false)

/-- `Text2GCodesTests.test_basic` (tests/test_gcodes.py:109-111). -/
def basic : Bool :=
  (match text2gcodes (chars! "G1 X1 Y2 G90") with
    | .ok [a, b] => a.word == ⟨'G', .num 1⟩ && a.get 'X' == .ok (some (.num 1)) &&
        a.get 'Y' == .ok (some (.num 2)) && b.word == ⟨'G', .num 90⟩
    | _ => false)

/-- `Text2GCodesTests.test_modal_params` (tests/test_gcodes.py:119-121). -/
def modalParamsRaise : Bool := text2gcodes (chars! "X1 Y2") == .error .wordStr

/-- `GCodeSplitTests.test_split` (tests/test_gcodes.py:126-133). -/
def split : Bool :=
  (match text2gcodes (chars! "G91 S1000 G1 X1 Y2 M3") with
    | .ok gs =>
      let s := splitGcodes gs .startSpindle true
      [s.1.length, s.2.1.length, s.2.2.length] == [1, 1, 2] && s.1.any (·.cls.isSub .spindleSpeed) &&
        s.2.1.all (·.cls.isSub .startSpindle) && s.2.2.any (·.cls.isSub .distanceMode) &&
        s.2.2.any (·.cls.isSub .motion)
    | _ => false)

/-- `GCodeSplitTests.test_split_unsorted` (tests/test_gcodes.py:135-142). -/
def splitUnsorted : Bool :=
  (match text2gcodes (chars! "G91 G1 X1 Y2 M3 S1000") with
    | .ok gs =>
      let s := splitGcodes gs .startSpindle false
      [s.1.length, s.2.1.length, s.2.2.length] == [2, 1, 1] && s.1.any (·.cls.isSub .distanceMode) &&
        s.1.any (·.cls.isSub .motion) && s.2.1.all (·.cls.isSub .startSpindle) &&
        s.2.2.any (·.cls.isSub .spindleSpeed)
    | _ => false)

/-- The tests above (in one evaluation, as that of the class maps is the long part). -/
example : (mapIntegrity && groupsAgree && stuff && basic && modalParamsRaise && split && splitUnsorted) = true := by
  decide +kernel

/-- `L(**args(…))`. -/
def lin (ps : List (Char × ℚ)) : GCode := ⟨.linearMove, ⟨'G', .num 1⟩, ps.map (fun p => ⟨p.1, .num p.2⟩), false⟩
/-- `R(**args(…))`. -/
def rap (ps : List (Char × ℚ)) : GCode := ⟨.rapidMove, ⟨'G', .num 0⟩, ps.map (fun p => ⟨p.1, .num p.2⟩), false⟩

/-- `test_gcodes_abs2rel` (tests/test_gcodes.py:147-152), the incremental output. -/
example : (abs2rel xyz (Position.make xyz .mm [(.X, 10), (.Y, 20), (.Z, 30)])
    ([lin [('X', 0), ('Y', 0), ('Z', 0)], lin [('X', 1), ('Y', 2), ('Z', 0)], lin [('X', 3), ('Y', 4), ('Z', 0)],
      rap [('X', 1), ('Y', 2), ('Z', 0)], rap [('X', 3), ('Y', 4), ('Z', 0)], lin [('X', 3), ('Y', 4), ('Z', 0)],
      lin [('X', 3), ('Y', 4), ('Z', 8)]], .done)).1.map (fun g => (g.cls, g.word, g.params)) =
    [lin [('X', -10), ('Y', -20), ('Z', -30)], lin [('X', 1), ('Y', 2)], lin [('X', 2), ('Y', 2)],
      rap [('X', -2), ('Y', -2)], rap [('X', 2), ('Y', 2)], lin [('Z', 8)]].map
        (fun g => (g.cls, g.word, g.params)) := by decide +kernel

/-! ## tests/test_machine.py -/

/-- `PositionTests.test_default_axes` (tests/test_machine.py:23-37). -/
example : ∀ a b : Axis, (Position.zero Axis.all).get a = .ok 0 ∧
    (match (Position.zero Axis.all).set a 100 with
      | .ok p => p.get b = .ok (if b = a then 100 else 0)
      | .error _ => False) := by
  intro a b
  simp only [Position.zero, Axis.all, Position.get, Position.set, Finset.mem_univ, if_true, true_and]
  by_cases h : b = a <;> simp [h]

/-- The axes `XYZA`. -/
def xyza : Finset Axis := {.X, .Y, .Z, .A}

/-- `PositionTests.test_equality` (tests/test_machine.py:40-56). -/
example :
    let p1 := Position.make xyz .mm [(.X, 1), (.Y, 2)]
    let p2 := Position.make xyz .mm [(.X, 1), (.Y, 2), (.Z, 0)]
    let p3 := Position.make xyz .mm [(.X, 1), (.Y, 2), (.Z, 1000)]
    let p4 := Position.make xyza .mm [(.X, 1), (.Y, 2), (.Z, 0)]
    p1.eq p2 = true ∧ p2.eq p3 = false ∧ p2.eq p4 = false := by decide +kernel

/-- Does a calculation give this position? -/
def gives (r : Except Err Position) (p : Position) : Bool :=
  match r with
  | .ok q => q.eq p
  | .error _ => false

/-- Does a calculation raise `MachineInvalidAxis`? -/
def mismatch (r : Except Err Position) : Bool :=
  match r with
  | .error .invalidAxis => true
  | _ => false

/-- `PositionTests.test_arithmetic_*` (tests/test_machine.py:59-86). -/
example :
    let p1 := Position.make xyz .mm [(.X, 1), (.Y, 2)]
    let p2 := Position.make xyz .mm [(.Y, 10), (.Z, -20)]
    let p3 := Position.make xyza .mm []
    let p := Position.make xyz .mm [(.X, 2), (.Y, 10)]
    gives (p1.add p2) (Position.make xyz .mm [(.X, 1), (.Y, 12), (.Z, -20)]) = true ∧
    mismatch (p1.add p3) = true ∧ mismatch (p3.add p1) = true ∧
    gives (p1.sub p2) (Position.make xyz .mm [(.X, 1), (.Y, -8), (.Z, 20)]) = true ∧
    (p3.sub p1).isOk = true ∧ mismatch (p1.sub p3) = true ∧
    (p.mul 2).eq (Position.make xyz .mm [(.X, 4), (.Y, 20)]) = true ∧
    gives (p.div 2) (Position.make xyz .mm [(.X, 1), (.Y, 5)]) = true := by decide +kernel

/-- `assert_processed_lines` (tests/test_machine.py:90-98): every line is processed if it has a
block, and the machine is then where the test says. -/
def processed (m : Machine) : List (List Char × Option (List (Axis × ℚ))) → Bool
  | [] => true
  | (t, e) :: rest =>
    match Line.ofText t with
    | .error _ => false
    | .ok l =>
      match (if l.block.len = 0 then (m, none) else m.processBlock l.block) with
      | (_, some _) => false
      | (m', none) =>
        (match e with
          | none => true
          | some cs => gives m'.pos (Position.make m'.axes m'.absPos.unit cs)) && processed m' rest

/-- A test case: a new machine processes codes of the given classes, then the lines. -/
def follows (cs : List Cls) (ls : List (List Char × Option (List (Axis × ℚ)))) : Bool :=
  match cs.mapM (fun c => GCode.makeKw c []) with
  | .error _ => false
  | .ok gs =>
    match new.processGcodes gs [] with
    | (_, some _) => false
    | (m, none) => processed m ls

/-- The test cases of `MachineGCodeProcessingTests`: the codes processed first, then the lines and where the
machine is after each of them. -/
def machineTests : List (List Cls × List (List Char × Option (List (Axis × ℚ)))) := [
  -- `test_rapid_abs` (tests/test_machine.py:106-116)
  ([.absoluteDistanceMode], [
    (chars! "", some []),
    (chars! "g0 x0 y10", some [(.X, 0), (.Y, 10)]),
    (chars! "   x10 y10", some [(.X, 10), (.Y, 10)]),
    (chars! "   x10 y0", some [(.X, 10), (.Y, 0)]),
    (chars! "   x0 y0", some [(.X, 0), (.Y, 0)])]),
  -- `test_rapid_inc` (tests/test_machine.py:118-128)
  ([.incrementalDistanceMode], [
    (chars! "", some []),
    (chars! "g0 y10", some [(.X, 0), (.Y, 10)]),
    (chars! "   x10", some [(.X, 10), (.Y, 10)]),
    (chars! "   y-10", some [(.X, 10), (.Y, 0)]),
    (chars! "   x-10", some [(.X, 0), (.Y, 0)])]),
  -- `test_linear_abs` (tests/test_machine.py:131-140)
  ([.absoluteDistanceMode], [
    (chars! "g1 x0 y10", some [(.X, 0), (.Y, 10)]),
    (chars! "   x10 y10", some [(.X, 10), (.Y, 10)]),
    (chars! "   x10 y0", some [(.X, 10), (.Y, 0)]),
    (chars! "   x0 y0", some [(.X, 0), (.Y, 0)])]),
  -- `test_linear_inc` (tests/test_machine.py:142-151)
  ([.incrementalDistanceMode], [
    (chars! "g1 y10", some [(.X, 0), (.Y, 10)]),
    (chars! "   x10", some [(.X, 10), (.Y, 10)]),
    (chars! "   y-10", some [(.X, 10), (.Y, 0)]),
    (chars! "   x-10", some [(.X, 0), (.Y, 0)])]),
  -- `test_arc_abs` (tests/test_machine.py:154-160)
  ([.absoluteDistanceMode, .incrementalArcDistanceMode], [
    (chars! "g2 x0 y10 i5 j5", some [(.X, 0), (.Y, 10)]),
    (chars! "   x10 y10 i5 j-5", some [(.X, 10), (.Y, 10)]),
    (chars! "   x10 y0 i-5 j-5", some [(.X, 10), (.Y, 0)]),
    (chars! "   x0 y0 i-5 j5", some [(.X, 0), (.Y, 0)]),
    (chars! "g3 x10 y0 i5 j5", some [(.X, 10), (.Y, 0)]),
    (chars! "   x10 y10 i-5 j5", some [(.X, 10), (.Y, 10)]),
    (chars! "   x0 y10 i-5 j-5", some [(.X, 0), (.Y, 10)]),
    (chars! "   x0 y0 i5 j-5", some [(.X, 0), (.Y, 0)])]),
  -- `test_arc_inc` (tests/test_machine.py:174-180)
  ([.incrementalDistanceMode, .incrementalArcDistanceMode], [
    (chars! "g2 y10 i5 j5", some [(.X, 0), (.Y, 10)]),
    (chars! "   x10 i5 j-5", some [(.X, 10), (.Y, 10)]),
    (chars! "   y-10 i-5 j-5", some [(.X, 10), (.Y, 0)]),
    (chars! "   x-10 i-5 j5", some [(.X, 0), (.Y, 0)]),
    (chars! "g3 x10 i5 j5", some [(.X, 10), (.Y, 0)]),
    (chars! "   y10 i-5 j5", some [(.X, 10), (.Y, 10)]),
    (chars! "   x-10 i-5 j-5", some [(.X, 0), (.Y, 10)]),
    (chars! "   y-10 i5 j-5", some [(.X, 0), (.Y, 0)])]),
  -- `test_canned_return2oldz` (tests/test_machine.py:195-205)
  ([.absoluteDistanceMode, .cannedCycleReturnPrevLevel], [
    (chars! "g0 z5", some [(.Z, 5)]),
    (chars! "g81 x10 y20 z-2 r1", some [(.X, 10), (.Y, 20), (.Z, 5)])]),
  -- `test_canned_return2r` (tests/test_machine.py:207-217)
  ([.absoluteDistanceMode, .cannedCycleReturnToR], [
    (chars! "g0 z5", some [(.Z, 5)]),
    (chars! "g81 x10 y20 z-2 r1", some [(.X, 10), (.Y, 20), (.Z, 1)])]),
  -- `test_canned_loops` (tests/test_machine.py:219-231)
  ([.absoluteDistanceMode, .cannedCycleReturnPrevLevel], [
    (chars! "g0 z5", none),
    (chars! "g81 x10 y20 z-2 r1 l2", some [(.X, 10), (.Y, 20), (.Z, 5)]),
    (chars! "g91", none),
    (chars! "g81 x10 y20 z-2 r1 l2", some [(.X, 30), (.Y, 60), (.Z, 5)])])]

/-! ## tests/test_parsing.py -/

/-- `FileParsingTest.test_file` (tests/test_parsing.py:28-33): every line is read and processed. -/
def parsed (m : Machine) : List (List Char) → Bool
  | [] => true
  | t :: ts =>
    match Line.ofText t with
    | .error _ => false
    | .ok l =>
      match m.processBlock l.block with
      | (_, some _) => false
      | (m', none) => parsed m' ts

/-- tests/test-files/linuxcnc/random-sample-1.gcode -/
def sample1 : List (List Char) := [
    chars! "G17 G20 G90 G94 G54\n",
    chars! "G0 Z0.25\n",
    chars! "X-0.5 Y0.\n",
    chars! "Z0.1\n",
    chars! "G01 Z0. F5.\n",
    chars! "G02 X0. Y0.5 I0.5 J0. F2.5\n",
    chars! "X0.5 Y0. I0. J-0.5\n",
    chars! "X0. Y-0.5 I-0.5 J0.\n",
    chars! "X-0.5 Y0. I0. J0.5\n",
    chars! "G01 Z0.1 F5.\n",
    chars! "G00 X0. Y0. Z0.25\n"]

/-- tests/test-files/linuxcnc/vertical-slot.ngc -/
def slot : List (List Char) := [
    chars! "T5 M06 G43\n",
    chars! "G17 G90 G21\n",
    chars! "G00 Z5 S7000 M03\n",
    chars! "X9.60 Y48.74\n",
    chars! "Z2\n",
    chars! "G01 Z-0.5 F100\n",
    chars! "G02 X10.75 Y47.44 I-0.11 J-1.26 F70\n",
    chars! "G01 X10.75 Y-47.44\n",
    chars! "G02 X9.51 Y-48.69 I-1.25 J0\n",
    chars! "G02 X8.25 Y-47.44 I0 J1.25\n",
    chars! "G01 X8.25 Y-47.44\n",
    chars! "X8.25 Y47.44\n",
    chars! "G02 X9.6 Y48.74 I1.25 J0.05\n",
    chars! "G00 Z5\n",
    chars! "Z1.5\n",
    chars! "G01 Z-1 F100\n",
    chars! "G02 X10.75 Y47.44 I-0.11 J-1.26 F70\n",
    chars! "G01 X10.75 Y-47.44\n",
    chars! "G02 X9.51 Y-48.69 I-1.25 J0\n",
    chars! "G02 X8.25 Y-47.44 I0 J1.25\n",
    chars! "G01 X8.25 Y-47.44\n",
    chars! "X8.25 Y47.44\n",
    chars! "G02 X9.60 Y48.74 I1.25 J0.05\n",
    chars! "G00 Z5\n",
    chars! "T0 M06 M02\n",
    chars! "\n"]

/-- The tests of machine and files (in one evaluation, as that of the machine's default mode is the long part). -/
example : machineTests.all (fun t => follows t.1 t.2) = true ∧ parsed new sample1 = true ∧
    parsed new slot = true := by decide +kernel

/-! ## tests/test_utils.py -/

/-- The codes of lines (`l.gcodes[0]`), for the test below. -/
def heads (ls : List (List Char)) : List GCode :=
  ls.filterMap fun t => match Line.ofText t with
    | .ok l => l.block.gcodes.head?
    | .error _ => none

/-- `UtilityTests.test_omit_redundant_modes` (tests/test_utils.py:13-33): which of the printed codes
begin with a blank. -/
example : (omitRedundant (heads [chars! "g1 x0 y0 ; yes", chars! "g1 x10 y-20 ; no", chars! "g0 x-3 y2 ; yes",
    chars! "g0 x0 y0 ; no", chars! "g0 x1 y1 ; no", chars! "g1 x20 y20 z5 ; yes"])).1.map
      (fun g => match g.str with | c :: _ => isSpace c | [] => false) =
    [false, true, false, true, true, false] := by decide +kernel

end RepoTests

end Pygcode
