import Verif.Model.GCodes
import Mathlib.Data.Finset.Basic
import Mathlib.Data.Fintype.Basic

/-!
# The virtual machine: `src/pygcode/machine.py` and the `_process` methods of `gcodes.py`

Methods that change the machine return the machine afterwards and the exception raised, if any: an
exception can leave a partly changed machine behind.
-/

namespace Pygcode

/-- The possible axes (machine.py:38). -/
inductive Axis
  | X | Y | Z | A | B | C | U | V | W
  deriving DecidableEq, Repr

instance : Fintype Axis :=
  ⟨{.X, .Y, .Z, .A, .B, .C, .U, .V, .W}, fun a => by cases a <;> decide⟩

namespace Axis

/-- The letter of an axis. -/
def letter : Axis → Char
  | X => 'X' | Y => 'Y' | Z => 'Z' | A => 'A' | B => 'B' | C => 'C' | U => 'U' | V => 'V' | W => 'W'

/-- The axis with a letter. -/
def ofLetter (c : Char) : Option Axis :=
  if c = 'X' then some X else if c = 'Y' then some Y else if c = 'Z' then some Z
  else if c = 'A' then some A else if c = 'B' then some B else if c = 'C' then some C
  else if c = 'U' then some U else if c = 'V' then some V else if c = 'W' then some W else none

/-- `POSSIBLE_AXES` (machine.py:38). -/
def all : Finset Axis := Finset.univ

end Axis

/-- Length units (machine.py:21-22). -/
inductive LUnit
  /-- `UNIT_IMPERIAL` = 0 -/
  | inch
  /-- `UNIT_METRIC` = 1 -/
  | mm
  deriving DecidableEq, Repr

/-- `UNIT_MAP[a]['conversion_factor'][b]` (machine.py:23-32), 1 for `a = b` (where no factor is
looked up). -/
def LUnit.factor : LUnit → LUnit → ℚ
  | .inch, .mm => 25.4
  | .mm, .inch => 1 / 25.4
  | _, _ => 1

/-! ## Position (machine.py:35-188) -/

/-- `Position`.  `val` is `_value` (0 outside `axes`).  Simplification: keyword coordinates for axes
that the position does not have are dropped (Python keeps them in `_value`, where no attribute
access, addition or subtraction of the machine's positions can see them); `None` coordinates are
handled where they can arise (`Machine.move`). -/
structure Position where
  axes : Finset Axis
  unit : LUnit
  val : Axis → ℚ

namespace Position

/-- Coordinates are zero outside the axes. -/
def WF (p : Position) : Prop := ∀ a ∉ p.axes, p.val a = 0

/-- Last coordinate given for an axis (a keyword can be given once only, so: the one given). -/
def lookup (cs : List (Axis × ℚ)) (a : Axis) : Option ℚ := (cs.find? (fun c => c.1 == a)).map Prod.snd

/-- `Position(axes=axes, unit=unit, **coords)` (machine.py:40-55). -/
def make (axes : Finset Axis) (unit : LUnit) (cs : List (Axis × ℚ)) : Position :=
  ⟨axes, unit, fun a => if a ∈ axes then (lookup cs a).getD 0 else 0⟩

/-- `Position(axes=axes)` with the default unit (machine.py:37, 51). -/
def zero (axes : Finset Axis) : Position := ⟨axes, .mm, fun _ => 0⟩

/-- Reading an axis attribute (machine.py:65-72). -/
def get (p : Position) (a : Axis) : Except Err ℚ :=
  if a ∈ p.axes then .ok (p.val a) else .error .attribute

/-- Assigning an axis attribute (machine.py:74-80). -/
def set (p : Position) (a : Axis) (v : ℚ) : Except Err Position :=
  if a ∈ p.axes then .ok { p with val := Function.update p.val a v } else .error .invalidAxis

/-- `update(**coords)` (machine.py:60-62).  It raises at the first unknown axis; the coordinates set
before that stay set in the object, hence the pair. -/
def update (p : Position) : List (Axis × ℚ) → Position × Option Err
  | [] => (p, none)
  | c :: cs =>
    match p.set c.1 c.2 with
    | .error e => (p, some e)
    | .ok p' => p'.update cs

/-- The body of the property setter `unit` (machine.py:133-139).  Nothing in Python calls it: see
`assignUnit`. -/
def unitSetter (p : Position) (u : LUnit) : Position :=
  if u = p.unit then p else ⟨p.axes, u, fun a => p.val a * p.unit.factor u⟩

/-- The statement `p.unit = u`.  `Position` overrides `__setattr__` (machine.py:74-80) without
falling back on `object.__setattr__`, so the assignment does not run the property setter: it stores
`u` in `p.__dict__['unit']`, which the property (a data descriptor) hides from every later read of
`p.unit`.  `_unit` and the coordinates stay as they are. -/
def assignUnit (p : Position) (_u : LUnit) : Position := p

/-- `==` (machine.py:83-92).  Simplification: `vector` (machine.py:179-181) can insert zero entries
for axes the position lacks, which a dict comparison would notice; axes only are compared here. -/
def eq (a b : Position) : Bool :=
  if a.axes = b.axes then
    if a.unit = b.unit then decide (∀ x ∈ a.axes, a.val x = b.val x)
    else decide (∀ x ∈ a.axes, a.val x = (b.assignUnit a.unit).val x)
  else false

/-- `+` (machine.py:98-104). -/
def add (a b : Position) : Except Err Position :=
  if a.axes = b.axes then .ok { a with val := fun x => a.val x + b.val x } else .error .invalidAxis

/-- `-` (machine.py:106-112). -/
def sub (a b : Position) : Except Err Position :=
  if b.axes ⊆ a.axes then .ok { a with val := fun x => a.val x - b.val x } else .error .invalidAxis

/-- `* scalar` (machine.py:114-118). -/
def mul (a : Position) (s : ℚ) : Position := { a with val := fun x => a.val x * s }

/-- `/ scalar` (machine.py:120-126). -/
def div (a : Position) (s : ℚ) : Except Err Position :=
  if s = 0 ∧ a.axes ≠ ∅ then .error .zeroDiv else .ok { a with val := fun x => a.val x / s }

/-- `_cmp` (machine.py:142-160).  `cls` is the base class `Position` (machine.py:545-546), so the
result has all nine axes, those that `p1` lacks being zero. -/
def cmp (key : ℚ → ℚ → ℚ) (p1 p2 : Position) : Except Err Position :=
  let p2' := if p2.unit ≠ p1.unit then p2.assignUnit p1.unit else p2
  if p1.axes ⊆ p2.axes then
    .ok ⟨Axis.all, p1.unit, fun a => if a ∈ p1.axes then key (p1.val a) (p2'.val a) else 0⟩
  else .error .attribute

/-- `Position.min` (machine.py:162-164). -/
def min (a b : Position) : Except Err Position := cmp Min.min a b

/-- `Position.max` (machine.py:166-168). -/
def max (a b : Position) : Except Err Position := cmp Max.max a b

end Position

/-! ## Mode (machine.py:264-362) -/

/-- `MODAL_GROUP_MAP` (gcodes.py:74-108): names and numbers. -/
def modalGroups : List (String × ℕ) :=
  [("motion", 1), ("plane_selection", 2), ("distance", 3), ("arc_ijk_distance", 4),
   ("feed_rate_mode", 5), ("units", 6), ("cutter_diameter_comp", 7), ("tool_length_offset", 8),
   ("canned_cycles_return", 10), ("coordinate_system", 12), ("control_mode", 13),
   ("spindle_speed_mode", 14), ("lathe_diameter", 15), ("stopping", 104), ("spindle", 107),
   ("coolant", 108), ("override_switches", 109), ("user_defined", 110), ("feed_rate", 201),
   ("spindle_speed", 202), ("tool", 203)]

/-- `mode.modal_groups` (machine.py:293): a gcode, or nothing, per group number. -/
abbrev Mode := ℕ → Option GCode

namespace Mode

/-- The null mode (machine.py:293, 562-563). -/
def null : Mode := fun _ => none

/-- One step of the loop of `set_mode` (machine.py:315-317). -/
def setOne (m : Mode) (g : GCode) : Mode × Option Err :=
  match g.cls.group with
  | none => (m, none)
  | some k =>
    match g.modalCopy with
    | .error e => (m, some e)
    | .ok c => (Function.update m k (some c), none)

/-- The loop of `set_mode` (machine.py:314-318) over sorted gcodes. -/
def setLoop (m : Mode) : List GCode → Mode × Option Err
  | [] => (m, none)
  | g :: gs =>
    match m.setOne g with
    | (m', some e) => (m', some e)
    | (m', none) => setLoop m' gs

/-- `set_mode(*gcodes)` (machine.py:307-319). -/
def setMode (m : Mode) (gs : List GCode) : Mode × Option Err := m.setLoop (execSort gs)

/-- `mode.motion` etc. (machine.py:321-328). -/
def motion (m : Mode) : Option GCode := m 1
/-- `mode.plane_selection` -/
def plane (m : Mode) : Option GCode := m 2
/-- `mode.distance` -/
def distance (m : Mode) : Option GCode := m 3
/-- `mode.units` -/
def units (m : Mode) : Option GCode := m 6
/-- `mode.canned_cycles_return` -/
def cannedReturn (m : Mode) : Option GCode := m 10
/-- `mode.coordinate_system` -/
def coordSystem (m : Mode) : Option GCode := m 12

/-- `mode.<name> = value` for the group with number `k` (machine.py:330-343); `none` clears. -/
def assign (m : Mode) (k : ℕ) (v : Option GCode) : Except Err Mode :=
  match v with
  | none => .ok (Function.update m k none)
  | some g =>
    if g.cls.group ≠ some k then .error .invalidState
    else
      match g.modalCopy with
      | .error e => .error e
      | .ok c => .ok (Function.update m k (some c))

/-- `mode.gcodes` (machine.py:347-354). -/
def gcodes (m : Mode) : List GCode := (modalGroups.map Prod.snd).filterMap m

/-- `str(mode)` (machine.py:356-357). -/
def str (m : Mode) : List Char := joinWith [' '] (m.gcodes.map GCode.str)

/-- The lines of `default_mode` (machine.py:271-288), as the regular expression of line 298 finds
them. -/
def defaultLines : List String :=
  ["G0      (movement: rapid)", "G17     (plane_selection: X/Y plane)",
   "G90     (distance: absolute position. ie: not \"turtle\" mode)",
   "G91.1   (arc_ijk_distance: IJK sets arc center vertex relative to current position)",
   "G94     (feed_rate_mode: feed-rate defined in units/min)", "G21     (units: mm)",
   "G40     (cutter_diameter_comp: no compensation)", "G49     (tool_length_offset: no offset)",
   "G54     (coordinate_system: 1)", "G61     (control_mode: exact path mode)",
   "G97     (spindle_speed_mode: RPM Mode)", "M5      (spindle: off)", "M9      (coolant: off)",
   "F0      (feed_rate: 0)", "S0      (spindle_speed: 0)", "T0      (tool: 0)", ""]

/-- The gcodes of the default mode (machine.py:297-299). -/
def defaultGcodes : Except Err (List GCode) :=
  defaultLines.foldlM (fun gs l =>
    match Line.ofText l.toList with
    | .error e => .error e
    | .ok ln => .ok (gs ++ ln.block.gcodes)) []

/-- `Mode()` (machine.py:292-300). -/
def default : Mode :=
  match defaultGcodes with
  | .error _ => null      -- does not happen: `default_ok` in `Props/Modes.lean`
  | .ok gs => (null.setMode gs).1

end Mode

/-! ## State (machine.py:191-261) -/

/-- `state.coord_systems` (machine.py:216-218): a dict of coordinate systems (their offsets) with
keys 1 to 9; a copied state has the list of those keys instead (machine.py:245, which iterates over
a dict). -/
inductive CSTable
  | dict (offset : ℕ → Position)
  | keyList

/-- `State`. -/
structure State where
  systems : CSTable
  /-- `cur_coord_sys`; 0 stands for `None` -/
  cur : ℕ
  offset : Position

/-- `State(axes)` (machine.py:213-223). -/
def State.new (axes : Finset Axis) : State :=
  ⟨.dict (fun _ => Position.zero axes), 1, Position.zero axes⟩

/-- `copy(state)` (machine.py:243-247). -/
def State.copy (s : State) : State := ⟨.keyList, 1, s.offset⟩

/-! ## Machine (machine.py:365-557) -/

/-- `Machine`. -/
structure Machine where
  axes : Finset Axis
  /-- `ignore_invalid_modal` -/
  ignoreInvalid : Bool
  mode : Mode
  state : State
  absPos : Position
  rangeMin : Position
  rangeMax : Position

/-- Outcome of a method: the machine afterwards, and the exception raised, if any. -/
abbrev MRes := Machine × Option Err

namespace Machine

/-- Continue with `f` unless an exception was raised. -/
def andThen (r : MRes) (f : Machine → MRes) : MRes :=
  match r with
  | (m, some e) => (m, some e)
  | (m, none) => f m

/-- `XYZ` (machine.py:372). -/
def xyz : Finset Axis := {.X, .Y, .Z}

/-- A new machine with a given mode: `Machine.__init__` (machine.py:375-390).  The unit of its
positions is the one of the mode (machine.py:380-384). -/
def newWith (axes : Finset Axis) (mode : Mode) : Machine :=
  let u : LUnit := match mode.units with
    | none => .mm
    | some g => if g.cls.unitId = some 0 then .inch else .mm
  ⟨axes, false, mode, State.new axes, ⟨axes, u, fun _ => 0⟩, ⟨axes, u, fun _ => 0⟩,
    ⟨axes, u, fun _ => 0⟩⟩

/-- `Machine()`. -/
def new : Machine := newWith xyz Mode.default

/-- `NullMachine()` (machine.py:568-570). -/
def newNull : Machine := newWith xyz Mode.null

/-- `copy(machine)` (machine.py:392-399).  Mode and positions are values here; `axes` and
`ignore_invalid_modal` are class attributes (machine.py:372-373), which the copy shares. -/
def copy (m : Machine) : Machine := { m with state := m.state.copy }

/-- `set_mode(*gcodes)` (machine.py:401-407). -/
def setMode (m : Machine) (gs : List GCode) : MRes :=
  match m.mode.setMode gs with
  | (md, some e) => ({ m with mode := md }, some e)
  | (md, none) =>
    match md.coordSystem with
    | none => ({ m with mode := md }, none)
    | some g => ({ m with mode := md, state := { m.state with cur := g.cls.coordSys.getD 0 } }, none)

/-- `getattr(self.state.coord_sys, 'offset', Position(axes=self.axes))` (machine.py:249-254, 523). -/
def coordOffset (m : Machine) : Except Err Position :=
  match m.state.systems with
  | .dict f =>
    if 1 ≤ m.state.cur ∧ m.state.cur ≤ 9 then .ok (f m.state.cur) else .ok (Position.zero m.axes)
  | .keyList => if m.state.cur = 9 then .error .index else .ok (Position.zero m.axes)

/-- `abs2work` (machine.py:521-525). -/
def abs2work (m : Machine) (p : Position) : Except Err Position :=
  match m.coordOffset with
  | .error e => .error e
  | .ok o =>
    match p.sub o with
    | .error e => .error e
    | .ok q => q.sub m.state.offset

/-- `work2abs` (machine.py:527-531). -/
def work2abs (m : Machine) (p : Position) : Except Err Position :=
  match m.coordOffset with
  | .error e => .error e
  | .ok o =>
    match p.add m.state.offset with
    | .error e => .error e
    | .ok q => q.add o

/-- `m.pos` (machine.py:533-536). -/
def pos (m : Machine) : Except Err Position := m.abs2work m.absPos

/-- `_update_abs_range` (machine.py:544-546). -/
def updateRange (m : Machine) (p : Position) : MRes :=
  match Position.min p m.rangeMin with
  | .error e => (m, some e)
  | .ok lo =>
    match Position.max p m.rangeMax with
    | .error e => ({ m with rangeMin := lo }, some e)
    | .ok hi => ({ m with rangeMin := lo, rangeMax := hi }, none)

/-- `m.pos = value` (machine.py:538-542). -/
def setPos (m : Machine) (p : Position) : MRes :=
  match m.work2abs p with
  | .error e => (m, some e)
  | .ok a => { m with absPos := a }.updateRange a

/-- `isinstance(self.mode.distance, GCodeIncrementalDistanceMode)` (machine.py:551). -/
def incremental (m : Machine) : Bool :=
  match m.mode.distance with
  | some g => g.cls.isSub .incrementalDistanceMode
  | none => false

/-- Coordinates given to `move_to`; `none` stands for Python's `None`. -/
abbrev Coords := List (Axis × Option ℚ)

/-- `move_to(**coords)` (machine.py:549-557).  A `None` coordinate makes the arithmetic raise
`TypeError`, after the check of the axes (absolute mode) resp. only if the axis is one of the
machine's (incremental mode, where additions range over the machine's axes). -/
def move (m : Machine) (cs : Coords) : MRes :=
  if m.incremental then
    let own := cs.filter (fun c => decide (c.1 ∈ m.axes))
    match m.pos with
    | .error e => (m, some e)
    | .ok p =>
      if own.any (fun c => c.2.isNone) then (m, some .type)
      else
        match p.add (Position.make m.axes .mm (own.filterMap (fun c => c.2.map (fun v => (c.1, v))))) with
        | .error e => (m, some e)
        | .ok q => m.setPos q
  else
    match m.pos with
    | .error e => (m, some e)
    | .ok p =>
      if cs.any (fun c => decide (c.1 ∉ p.axes)) then (m, some .invalidAxis)
      else if cs.any (fun c => c.2.isNone) then (m, some .type)
      else
        match p.update (cs.filterMap (fun c => c.2.map (fun v => (c.1, v)))) with
        | (_, some e) => (m, some e)
        | (q, none) => m.setPos q

/-- `get_param_dict(letters=machine.axes)` (gcodes.py:303-317): the coordinates among the
parameters. -/
def coords (axes : Finset Axis) (g : GCode) : List (Axis × ℚ) :=
  g.params.filterMap (fun w =>
    match Axis.ofLetter w.letter with
    | some a => if a ∈ axes then some (a, w.num) else none
    | none => none)

/-- `moveto_coords` of a canned cycle (gcodes.py:546-554). -/
def cannedCoords (m : Machine) (g : GCode) : Except Err Coords :=
  let base : Coords := (coords m.axes g).map (fun c => (c.1, some c.2))
  match m.mode.plane with
  | none => .error .attribute
  | some pl =>
    if (match m.mode.cannedReturn with
        | some r => r.cls.isSub .cannedCycleReturnToR
        | none => false) then
      match g.get 'R' with
      | .error e => .error e
      | .ok _ =>
        match pl.cls.normalAxis.bind Axis.ofLetter with
        | none => .error .type
        | some n =>
          if base.any (fun c => c.1 == n) then
            .ok (base.map (fun c => if c.1 = n then (n, g.num? 'R') else c))
          else .ok (base ++ [(n, g.num? 'R')])
    else
      match pl.cls.normalAxis.bind Axis.ofLetter with
      | none => .ok base
      | some n => .ok (base.filter (fun c => c.1 != n))

/-- `loop_count` of a canned cycle (gcodes.py:557-559). -/
def loopCount (g : GCode) : Except Err ℕ :=
  match g.get 'L' with
  | .error e => .error e
  | .ok _ =>
    match g.num? 'L' with
    | none => .ok 1
    | some q => if q ≤ 0 then .ok 1 else .ok (truncQ q).toNat

/-- `n` times the same move (gcodes.py:560-561). -/
def moves (m : Machine) (cs : Coords) : ℕ → MRes
  | 0 => (m, none)
  | n + 1 => andThen (m.move cs) (fun m' => moves m' cs n)

/-- `_process` (gcodes.py:339-341, 403-404, 411-412, 465-466, 525-526, 545-561). -/
def effect (m : Machine) (g : GCode) : MRes :=
  match g.cls.proc with
  | .nothing => (m, none)
  | .motion => m.move ((coords m.axes g).map (fun c => (c.1, some c.2)))
  | .rapid => m.move ((coords m.axes g).map (fun c => (c.1, some c.2)))
  | .cancel => ({ m with mode := Function.update m.mode 1 none }, none)
  | .canned =>
    match m.cannedCoords g with
    | .error e => (m, some e)
    | .ok cs =>
      match loopCount g with
      | .error e => (m, some e)
      | .ok n => m.moves cs n

/-- `gcode.process(machine)` (gcodes.py:320-337). -/
def process (m : Machine) (g : GCode) : MRes := andThen (m.setMode [g]) (fun m' => m'.effect g)

/-- Processing in the given order (machine.py:499-500). -/
def processAll (m : Machine) : List GCode → MRes
  | [] => (m, none)
  | g :: gs => andThen (m.process g) (fun m' => processAll m' gs)

/-- `params.update(…)` (machine.py:424), one word: replaced in place, or appended. -/
def overrideOne (ps : List Word) (w : Word) : List Word :=
  if (ps.map Word.letter).contains w.letter then
    ps.map (fun p => if p.letter = w.letter then w else p)
  else ps ++ [w]

/-- Retained parameters overridden by given ones (machine.py:423-424). -/
def override (ps : List Word) (mp : List Word) : List Word := mp.foldl overrideOne ps

/-- `modal_gcode(modal_params)` (machine.py:411-451). -/
def modalGcode (m : Machine) (mp : List Word) : Except Err (Option GCode) :=
  if mp = [] then .ok none
  else
    match m.mode.motion with
    | none => if m.ignoreInvalid then .ok none else .error .invalidState
    | some g =>
      match words2gcodes (g.word :: override g.params mp) with
      | .error e => .error e
      | .ok (gs, un) =>
        if un ≠ [] ∧ m.ignoreInvalid = false then .error .invalidState
        else
          match gs with
          | [] => .ok none
          | [g'] => .ok (some g')
          | _ => .error .assertion

/-- `block_modal_gcodes(block)` (machine.py:453-464). -/
def blockModalGcodes (m : Machine) (b : Block) : Except Err (List GCode) :=
  match m.modalGcode b.modalParams with
  | .error e => .error e
  | .ok og => .ok (execSort (b.gcodes ++ og.toList))

/-- `clean_block(block)` (machine.py:466-483). -/
def cleanBlock (m : Machine) (b : Block) : Except Err Block :=
  match m.mode.motion with
  | none => .ok { b with modalParams := [] }
  | some g =>
    if b.gcodes.any (fun x => x.cls.group == some 1) then .ok { b with modalParams := [] }
    else
      match words2gcodes (g.word :: b.modalParams) with
      | .error e => .error e
      | .ok (_, un) => .ok { b with modalParams := un.foldl List.erase b.modalParams }

/-- `process_gcodes(*gcodes, modal_params=mp)` (machine.py:485-500). -/
def processGcodes (m : Machine) (gs : List GCode) (mp : List Word) : MRes :=
  match m.modalGcode mp with
  | .error e => (m, some e)
  | .ok og => m.processAll (execSort (gs ++ og.toList))

/-- `process_block(block)` (machine.py:513-514). -/
def processBlock (m : Machine) (b : Block) : MRes := m.processGcodes b.gcodes b.modalParams

/-- `process_str(text)` (machine.py:516-518). -/
def processStr (m : Machine) (t : List Char) : MRes :=
  match Line.ofText t with
  | .error e => (m, some e)
  | .ok l => m.processBlock l.block

end Machine

end Pygcode
