import Verif.Model.Arc
import Verif.Model.Norm

/-!
# `pygcode-norm --arc_linearize`

The rest of the script: the branch that replaces an arc by lines (pygcode-norm:323-337), and the
options for it.  The vertices are real numbers (see `Model/Arc.lean`); what the program computes for
them is an unknown function `fl` here, which may depend on the machine, the arc and all vertices, and
about which theorems assume no more than how far it may be off.
-/

namespace Pygcode
open Machine

/-- `ARC_LIN_CLASS_MAP` (pygcode-norm:47-51), as a dict: other keys are a `KeyError`. -/
def arcLetter : Char → Except Err ArcMethod
  | 'i' => .ok .inside
  | 'o' => .ok .outside
  | 'm' => .ok .mid
  | _ => .error .key

/-- A letter that the regular expression of line 55 accepts, in either case.  Of the letters beyond ASCII, Python takes the i without
a dot and the capital I with a dot for the same letter as i when the case is ignored. -/
def arcLetterOK (c : Char) : Bool := c.toLower = 'i' || c.toLower = 'o' || c.toLower = 'm' || c = 'ı' || c = 'İ'

/-- The `$` of the regular expression of line 55: at the end of the text, or before a line break that ends it. -/
def beforeEnd (value : List Char) : List Char := if value.getLast? = some '\n' then value.dropLast else value

/-- The regular expression of line 55 up to its `$`, and the look-up of the letters found (pygcode-norm:55-64).  The regular expression
ignores the case, the map does not. -/
def arcLinLetters (value : List Char) : Except Err (ArcMethod × ArcMethod) :=
  match value with
  | [a] => if arcLetterOK a then (arcLetter a).map (fun x => (x, x)) else .error .value
  | [a, ',', b] =>
    if arcLetterOK a && arcLetterOK b then
      match arcLetter a with
      | .error e => .error e
      | .ok x => (arcLetter b).map (fun y => (x, y))
    else .error .value
  | _ => .error .value

/-- The methods for G2 and for G3 that `arc_lin_method_type` (pygcode-norm:43-66) returns; an empty
value gives a `defaultdict`. -/
def arcLinMethods (value : List Char) : Except Err (ArcMethod × ArcMethod) :=
  if value = [] then .ok (.mid, .mid) else arcLinLetters (beforeEnd value)

/-- The options for arcs (pygcode-norm:120-138). -/
structure ArcOpts where
  /-- `--arc_linearize` -/
  on : Bool
  /-- `--arc_lin_method`: for G2 and for G3 -/
  methods : ArcMethod × ArcMethod
  /-- `--arc_precision` -/
  precision : ℝ

namespace ArcOpts

/-- `args.arc_lin_method[arc.word]` (pygcode-norm:330). -/
def method (x : ArcOpts) (w : Word) : Except Err ArcMethod :=
  if w = ⟨'G', .num 2⟩ then .ok x.methods.1 else if w = ⟨'G', .num 3⟩ then .ok x.methods.2 else .error .key

end ArcOpts

/-- Coordinates as the program has them. -/
structure Q3 where
  x : ℚ
  y : ℚ
  z : ℚ

/-- What is computed for the vertices of an arc. -/
abbrev Floats := Machine → GCode → List V3 → List Q3

/-- `GCodeLinearMove(X=…, Y=…, Z=…)` (transform.py:363, 376). -/
def linearTo (v : Q3) : GCode :=
  ⟨.linearMove, ⟨'G', .num 1⟩, [⟨'X', .num v.x⟩, ⟨'Y', .num v.y⟩, ⟨'Z', .num v.z⟩], false⟩

/-- `arc_dist_mode` as given to `linearize_arc` (pygcode-norm:332, transform.py:240-241): whether it is
the incremental one, which is also the default. -/
def arcIncremental (m : Machine) : Bool :=
  match m.mode 4 with
  | none => true
  | some g => g.cls.isSub .incrementalArcDistanceMode

namespace NormOpts

variable (o : NormOpts) (x : ArcOpts) (fl : Floats)

/-- The gcodes that replace an arc (pygcode-norm:326-336). -/
noncomputable def arcMoves (m : Machine) (p : Position) (am : ArcMethod) (g : GCode) : Gen :=
  let r := linearizeArc g p (m.mode.plane.map GCode.cls) (some am) m.incremental (arcIncremental m) x.precision 3
  o.omitGen ((fl m g r.1).map linearTo, r.2)

/-- Their lines (pygcode-norm:326-337). -/
noncomputable def putArc (m : Machine) (g : GCode) : NormRes :=
  match m.pos with
  | .error e => ⟨[], m, .raised e⟩
  | .ok p =>
    match x.method g.word with
    | .error e => ⟨[], m, .raised e⟩
    | .ok am => o.putAll m (o.arcMoves x fl m p am g).1 (o.arcMoves x fl m p am g).2

/-- The branch that linearizes an arc (pygcode-norm:323-337 with 285-307). -/
noncomputable def arcLine (m : Machine) (gs : List GCode) (c : Option Comment) : NormRes :=
  match splitGcodes gs .arcMove true with
  | (befores, [g], afters) =>
    (o.putProcess m befores).andThen fun m =>
    (NormRes.put m (o.write [] [] (some (.brackets ("linearized arc: ".toList ++ reprText g))))).andThen fun m =>
    (o.putArc x fl m g).andThen fun m =>
    (NormRes.ofM (m.processGcodes [g] [])).andThen fun m =>
    (o.putProcess m afters).andThen fun m =>
    if c = none then ⟨[], m, .done⟩ else NormRes.put m (o.write [] [] c)
  | _ => ⟨[], m, .raised .value⟩

/-- One line of the file (pygcode-norm:313-357). -/
noncomputable def lineA (fuel : ℕ) (m : Machine) (t : List Char) : NormRes :=
  match Line.ofText t with
  | .error e => ⟨[], m, .raised e⟩
  | .ok l =>
    match (if o.rmInvalid then (m.cleanBlock l.block).map (fun b => { l with block := b }) else .ok l) with
    | .error e => ⟨[], m, .raised e⟩
    | .ok l =>
      match m.blockModalGcodes l.block with
      | .error e => ⟨[], m, .raised e⟩
      | .ok gs =>
        if x.on && gs.any (fun g => g.cls.isSub .arcMove) then o.arcLine x fl m gs l.comment
        else if o.cannedExpand && gs.any (fun g => decide (g.word ∈ o.cannedCodes)) then
          o.expandLine fuel m gs l.comment
        else o.plainLine m l gs

/-- The loop (pygcode-norm:313-357). -/
noncomputable def loopA (o : NormOpts) (x : ArcOpts) (fl : Floats) (fuel : ℕ) (m : Machine) :
    List (List Char) → NormRes
  | [] => ⟨[], m, .done⟩
  | t :: ts => (o.lineA x fl fuel m t).andThen (fun m => loopA o x fl fuel m ts)

/-- The script with all its options. -/
noncomputable def runA (fuel : ℕ) (md : Mode) (ts : List (List Char)) : NormRes :=
  (o.loopA x fl fuel (o.machine md) ts).andThen o.finish

end NormOpts

end Pygcode
