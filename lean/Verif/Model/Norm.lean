import Verif.Model.ClassNames
import Verif.Model.Crop
import Verif.Model.Transform

/-!
# The script `scripts/pygcode-norm`

Modelled: the utility functions, the processing of a file and the finalizing lines, for given values
of the options.  Not modelled: `argparse`.  The texts of options that are lists of words are in
`Model/NormArgs.lean`, the start mode in `Model/ModeText.lean`, the splitting of the file into lines in
`Model/File.lean`; `--arc_linearize` is in `Model/NormArc.lean`, everything here is for runs without it.
-/

namespace Pygcode
open Machine

/-- The options (pygcode-norm:85-214). -/
structure NormOpts where
  singles : Bool := false
  full : Bool := false
  cannedExpand : Bool := false
  /-- `--canned_codes`, a set of words -/
  cannedCodes : List Word := []
  zeroXY : Bool := false
  zeroZ : Bool := false
  /-- `--rapid_safety_height` -/
  safety : Option ℚ := none
  spindleOff : Bool := false
  rmComments : Bool := false
  rmBlanks : Bool := false
  rmWhitespace : Bool := false
  /-- `--rm_gcodes`, a set of words -/
  rmGcodes : List Word := []
  rmInvalid : Bool := false

/-- Lines printed, the machine, and how it ended. -/
structure NormRes where
  out : List (List Char)
  m : Machine
  status : Status

namespace NormRes

/-- Continue if nothing was raised. -/
def andThen (r : NormRes) (f : Machine → NormRes) : NormRes :=
  match r.status with
  | .done => ⟨r.out ++ (f r.m).out, (f r.m).m, (f r.m).status⟩
  | _ => r

/-- The machine's part. -/
def ofM (r : MRes) : NormRes :=
  match r with
  | (m, none) => ⟨[], m, .done⟩
  | (m, some e) => ⟨[], m, .raised e⟩

/-- A `write` among the rest. -/
def put (m : Machine) (r : Except Err (List (List Char))) : NormRes :=
  match r with
  | .error e => ⟨[], m, .raised e⟩
  | .ok ls => ⟨ls, m, .done⟩

end NormRes

namespace NormOpts

variable (o : NormOpts)

/-- The line printed by `write` for at most one gcode, or without `--singles`
(pygcode-norm:256-277). -/
def lineText (gs : List GCode) (mp : List Word) (c : Option Comment) (mac : Option (List Char)) : List Char :=
  let c := if o.rmComments then none else c
  let gs := if o.rmGcodes = [] then gs else gs.filter (fun g => decide (g.word ∉ o.rmGcodes))
  let b := joinWith [' '] (gs.map GCode.str ++ mp.map Word.str)
  let b := if o.rmWhitespace then b.filter (fun x => !isSpace x) else b
  joinWith [' '] ((if b = [] then [] else [b]) ++ (c.map Comment.str).toList ++ mac.toList)

/-- The lines printed for it (pygcode-norm:276-278). -/
def writeOne (gs : List GCode) (mp : List Word) (c : Option Comment) (mac : Option (List Char)) : List (List Char) :=
  if o.lineText gs mp c mac = [] ∧ o.rmBlanks = true then [] else [o.lineText gs mp c mac]

/-- `write(gcodes, modal_params, comment, macro)` (pygcode-norm:243-278). -/
def write (gs : List GCode) (mp : List Word := []) (c : Option Comment := none) (mac : Option (List Char) := none) :
    Except Err (List (List Char)) :=
  if o.full = true ∧ mp ≠ [] then .error .assertion
  else if o.singles = true ∧ 1 < gs.length then
    .ok ((execSort gs).flatMap (fun g => o.writeOne [g] [] c none))
  else .ok (o.writeOne gs mp c mac)

/-- `repr(gcode)` (gcodes.py:185-196). -/
def reprText (g : GCode) : List Char :=
  ['<'] ++ g.cls.pyName.toList ++ [':', ' '] ++ g.word.str ++
    (if g.params = [] then [] else ['{'] ++ joinWith [',', ' '] (g.sortedParams.map Word.str) ++ ['}']) ++ ['>']

/-- What `omit_redundant_modes` (or, with `--full`, its replacement, pygcode-norm:239-241) makes of
what a generator yields and how it ends. -/
def omitGen (r : Gen) : Gen := if o.full then r else (omitFrom newNull r.1).andThen ([], r.2)

/-- The gcodes that replace a canned cycle (pygcode-norm:339-350): the retract mode is not passed
on. -/
def expansion (fuel : ℕ) (m : Machine) (p : Position) (g : GCode) : Gen :=
  o.omitGen (simplify fuel g p (match m.mode.plane with
    | none => .selectXYPlane
    | some pl => pl.cls) m.incremental false m.axes)

/-- Every gcode on a line of its own. -/
def putAll (o : NormOpts) (m : Machine) : List GCode → Status → NormRes
  | [], s => ⟨[], m, s⟩
  | g :: gs, s => (NormRes.put m (o.write [g])).andThen (fun m => putAll o m gs s)

/-- The expansion of a canned cycle, starting from the machine's position (pygcode-norm:339-350). -/
def putExpansion (fuel : ℕ) (m : Machine) (g : GCode) : NormRes :=
  match m.pos with
  | .error e => ⟨[], m, .raised e⟩
  | .ok p => o.putAll m (o.expansion fuel m p g).1 (o.expansion fuel m p g).2

/-- `write(gs); machine.process_gcodes(*gs)` unless `gs` is empty (pygcode-norm:295-297, 302-304). -/
def putProcess (m : Machine) (gs : List GCode) : NormRes :=
  if gs = [] then ⟨[], m, .done⟩
  else (NormRes.put m (o.write gs)).andThen (fun m => .ofM (m.processGcodes gs []))

/-- The branch that expands a canned cycle (pygcode-norm:339-350 with 285-307). -/
def expandLine (fuel : ℕ) (m : Machine) (gs : List GCode) (c : Option Comment) : NormRes :=
  match splitGcodes gs .cannedCycle true with
  | (befores, [g], afters) =>
    (o.putProcess m befores).andThen fun m =>
    (NormRes.put m (o.write [] [] (some (.brackets ("expanded: ".toList ++ reprText g))))).andThen fun m =>
    (o.putExpansion fuel m g).andThen fun m =>
    (NormRes.ofM (m.processGcodes [g] [])).andThen fun m =>
    (o.putProcess m afters).andThen fun m =>
    if c = none then ⟨[], m, .done⟩ else NormRes.put m (o.write [] [] c)
  | _ => ⟨[], m, .raised .value⟩

/-- The other branch (pygcode-norm:352-357). -/
def plainLine (m : Machine) (l : Line) (gs : List GCode) : NormRes :=
  (NormRes.put m (if o.full then o.write gs [] l.comment l.macro?
    else o.write l.block.gcodes l.block.modalParams l.comment l.macro?)).andThen
    (fun m => .ofM (m.processBlock l.block))

/-- One line of the file (pygcode-norm:313-357). -/
def line (fuel : ℕ) (m : Machine) (t : List Char) : NormRes :=
  match Line.ofText t with
  | .error e => ⟨[], m, .raised e⟩
  | .ok l =>
    match (if o.rmInvalid then (m.cleanBlock l.block).map (fun b => { l with block := b }) else .ok l) with
    | .error e => ⟨[], m, .raised e⟩
    | .ok l =>
      match m.blockModalGcodes l.block with
      | .error e => ⟨[], m, .raised e⟩
      | .ok gs =>
        if o.cannedExpand && gs.any (fun g => decide (g.word ∈ o.cannedCodes)) then
          o.expandLine fuel m gs l.comment
        else o.plainLine m l gs

/-- The loop (pygcode-norm:313-357). -/
def loop (o : NormOpts) (fuel : ℕ) (m : Machine) : List (List Char) → NormRes
  | [] => ⟨[], m, .done⟩
  | t :: ts => (o.line fuel m t).andThen (fun m => loop o fuel m ts)

/-- `rapid_safety_height` (pygcode-norm:367-370). -/
def safeHeight (m : Machine) : Except Err ℚ :=
  match o.safety with
  | some h => .ok h
  | none =>
    match m.abs2work m.rangeMax with
    | .error e => .error e
    | .ok p => p.get .Z

/-- The comment before the finalizing gcodes (pygcode-norm:360-361). -/
def finishComment (m : Machine) : NormRes :=
  if o.spindleOff || o.zeroXY || o.zeroZ then
    .put m (o.write [] [] (some (.brackets "pygcode-norm: finalizing".toList)))
  else ⟨[], m, .done⟩

/-- The change to absolute distances (pygcode-norm:362-363). -/
def finishAbsolute (m : Machine) : NormRes :=
  if (o.zeroXY || o.zeroZ) && !(match m.mode.distance with
    | some d => d.cls.isSub .absoluteDistanceMode
    | none => false) then .put m (o.write [⟨.absoluteDistanceMode, ⟨'G', .num 90⟩, [], false⟩])
  else ⟨[], m, .done⟩

/-- `--spindle_off` (pygcode-norm:364-365). -/
def finishSpindle (m : Machine) : NormRes :=
  if o.spindleOff then
    .put m (o.write [⟨.stopSpindle, ⟨'M', .num 5⟩, [], false⟩] [] (some (.brackets "spindle off".toList)))
  else ⟨[], m, .done⟩

/-- `--zero_xy` (pygcode-norm:367-374). -/
def finishXY (m : Machine) : NormRes :=
  if o.zeroXY then
    match o.safeHeight m with
    | .error e => ⟨[], m, .raised e⟩
    | .ok h =>
      (NormRes.put m (o.write [rapidTo [(.Z, h)]] [] (some (.brackets "move to safe height".toList)))).andThen
        fun m => .put m (o.write [rapidTo [(.X, 0), (.Y, 0)]] [] (some (.brackets "move to planar origin".toList)))
  else ⟨[], m, .done⟩

/-- `--zero_z` (pygcode-norm:376-377). -/
def finishZ (m : Machine) : NormRes :=
  if o.zeroZ then .put m (o.write [rapidTo [(.Z, 0)]] [] (some (.brackets "move to zero height".toList)))
  else ⟨[], m, .done⟩

/-- Finalizing (pygcode-norm:359-377). -/
def finish (m : Machine) : NormRes :=
  ((((o.finishComment m).andThen o.finishAbsolute).andThen o.finishSpindle).andThen o.finishXY).andThen o.finishZ

/-- The machine of the script, with the mode made from `--machine_mode` (pygcode-norm:229-236). -/
def machine (md : Mode) : Machine := { newWith xyz md with ignoreInvalid := o.rmInvalid }

/-- The script. -/
def run (fuel : ℕ) (md : Mode) (ts : List (List Char)) : NormRes :=
  (o.loop fuel (o.machine md) ts).andThen o.finish

end NormOpts

end Pygcode
