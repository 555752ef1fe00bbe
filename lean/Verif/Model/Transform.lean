import Verif.Model.Machine

/-!
# Generators of gcodes

Model of `omit_redundant_modes` (utils.py:68-93), `_gcodes_abs2rel` (gcodes.py:1613-1680) and
`simplify_canned_cycle` (transform.py:386-485).

A Python generator is modelled by what it yields until it ends, raises, or (for loops that need not
end) has used up a bound on its number of iterations.
-/

namespace Pygcode
open Machine

/-- How a generator ended. -/
inductive Status
  | done
  | raised (e : Err)
  /-- stopped by the bound on the number of iterations -/
  | running
  deriving DecidableEq, Repr

/-- Yielded gcodes, and how it ended. -/
abbrev Gen := List GCode × Status

namespace Gen

/-- Yield `l` first. -/
def pre (l : List GCode) (r : Gen) : Gen := (l ++ r.1, r.2)

/-- Continue with `s` if the generator ended regularly. -/
def andThen (r s : Gen) : Gen :=
  match r.2 with
  | .done => (r.1 ++ s.1, s.2)
  | _ => r

end Gen

/-! ## omit_redundant_modes -/

/-- The test of utils.py:81-86: the word of a motion gcode that is already the machine's mode. -/
def redundant (md : Mode) (g : GCode) : Bool :=
  match g.cls.group with
  | none => false
  | some k =>
    match md k with
    | none => false
    | some h => decide (h.word = g.word) && decide (k = 1)

/-- The loop of `omit_redundant_modes` (utils.py:80-93) for a given machine. -/
def omitFrom (m : Machine) : List GCode → Gen
  | [] => ([], .done)
  | g :: gs =>
    let g' := if redundant m.mode g then { g with ws := true } else g
    match m.processGcodes [g'] [] with
    | (_, some e) => ([], .raised e)
    | (m', none) => Gen.pre [g'] (omitFrom m' gs)

/-- `omit_redundant_modes(gcodes)` (utils.py:68-93); its machine has no default mode (lines 76-78). -/
def omitRedundant (gs : List GCode) : Gen := omitFrom newNull gs

/-! ## _gcodes_abs2rel -/

/-- The mode of the machine of gcodes.py:1646-1649, made from `default_mode = 'G90'`. -/
def g90Mode : Mode := Function.update Mode.null 3 (some ⟨.absoluteDistanceMode, ⟨'G', .num 90⟩, [], false⟩)

/-- Axes in the order of their letters. -/
def axisOrder : List Axis := [.A, .B, .C, .U, .V, .W, .X, .Y, .Z]

/-- `[w for w in pos.words if w.value]` (machine.py:171-173, gcodes.py:1670). -/
def coordWords (p : Position) : List Word :=
  (axisOrder.filter (fun a => decide (a ∈ p.axes) && decide (p.val a ≠ 0))).map (fun a => ⟨a.letter, .num (p.val a)⟩)

/-- One gcode through `_gcodes_abs2rel` (gcodes.py:1653-1672). -/
def abs2relOne (m : Machine) (g : GCode) : Machine × Except Err (List GCode) :=
  match m.pos with
  | .error e => (m, .error e)
  | .ok pFrom =>
    match m.processGcodes [g] [] with
    | (m', some e) => (m', .error e)
    | (m', none) =>
      match m'.pos with
      | .error e => (m', .error e)
      | .ok pTo =>
        if g.cls.group ≠ some 1 then (m', .ok [g])
        else if g.cls.isSub .rapidMove || g.cls.isSub .linearMove then
          match pTo.sub pFrom with
          | .error e => (m', .error e)
          | .ok rel =>
            if coordWords rel = [] then (m', .ok [])
            else
              match words2gcodes (g.word :: coordWords rel) with
              | .error e => (m', .error e)
              | .ok (gs, _) =>
                match gs.getLast? with
                | none => (m', .error .index)
                | some g' => (m', .ok [g'])
        else (m', .error .notImpl)

/-- The loop of `_gcodes_abs2rel` (gcodes.py:1652-1672) over what the decorated generator yields
and how it ends. -/
def abs2relLoop (m : Machine) : List GCode → Status → Gen
  | [], s => ([], s)
  | g :: gs, s =>
    match abs2relOne m g with
    | (_, .error e) => ([], .raised e)
    | (m', .ok out) => Gen.pre out (abs2relLoop m' gs s)

/-- `_gcodes_abs2rel(start_pos, axes=axes)` for incremental mode (gcodes.py:1644-1672). -/
def abs2rel (axes : Finset Axis) (start : Position) (r : Gen) : Gen :=
  match (newWith axes g90Mode).setPos start with
  | (_, some e) => ([], .raised e)
  | (m, none) => abs2relLoop m r.1 r.2

/-! ## simplify_canned_cycle -/

/-- `GCodeRapidMove(Z=z)`. -/
def rapidZ (z : ℚ) : GCode := ⟨.rapidMove, ⟨'G', .num 0⟩, [⟨'Z', .num z⟩], false⟩
/-- `GCodeRapidMove(X=x, Y=y)`. -/
def rapidXY (x y : ℚ) : GCode := ⟨.rapidMove, ⟨'G', .num 0⟩, [⟨'X', .num x⟩, ⟨'Y', .num y⟩], false⟩
/-- `GCodeLinearMove(Z=z)`. -/
def feedZ (z : ℚ) : GCode := ⟨.linearMove, ⟨'G', .num 1⟩, [⟨'Z', .num z⟩], false⟩

/-- The drilling loop (transform.py:454-476), at most `n` iterations. -/
def drillLoop (chip : Bool) (retract bottom delta : ℚ) : ℕ → ℚ → ℚ → Gen
  | 0, _, _ => ([], .running)
  | n + 1, cur, last =>
    let cur' := if cur + delta < bottom then bottom else cur + delta
    let above := last + 1 / 10
    let moves := (if above < retract then [rapidZ above] else []) ++ [feedZ cur']
    if cur' ≤ bottom then (moves, .done)
    else
      let back := if chip then rapidZ (cur' + 1 / 2) else rapidZ retract
      Gen.pre (moves ++ [back]) (drillLoop chip retract bottom delta n cur' cur')

/-- The depth of one pass (transform.py:448-450); `none` if Q is missing. -/
def passDepth (g : GCode) (retract bottom : ℚ) : Option ℚ :=
  if g.cls.isSub .drillingCyclePeck || g.cls.isSub .drillingCycleChipBreaking then
    (g.num? 'Q').map (fun q => -|q|)
  else some (bottom - retract)

/-- One hole (transform.py:432-483).  `x`, `y` may be missing in absolute mode, which raises
`TypeError` only when the move to the hole is made; `GCodeDwell` is not imported by transform.py
(lines 3-11), so using it (line 480) raises `NameError`. -/
def hole (fuel : ℕ) (g : GCode) (startZ : Except Err ℚ) (toR : Bool) (retract bottom : ℚ) (x y : Option ℚ) : Gen :=
  if retract < bottom then ([], .raised .notImpl)
  else
    match startZ with
    | .error e => ([], .raised e)
    | .ok z0 =>
      let final := if toR then retract else z0
      Gen.pre (if retract > z0 then [rapidZ retract] else [])
        (match x, y with
        | some x, some y =>
          Gen.pre (rapidXY x y :: (if retract < z0 then [rapidZ retract] else []))
            (match passDepth g retract bottom with
            | none => ([], .raised .type)
            | some delta =>
              Gen.andThen
                (drillLoop (g.cls.isSub .drillingCycleChipBreaking) retract bottom delta fuel retract retract)
                (if g.cls.isSub .drillingCycleDwell then ([], .raised .name) else ([rapidZ final], .done)))
        | _, _ => ([], .raised .type))

/-- The loop over the holes (transform.py:421-483); `x`, `y` is the position of the previous hole
(used in incremental mode). -/
def holes (fuel : ℕ) (g : GCode) (start : Position) (incr toR : Bool) : ℕ → ℚ → ℚ → Gen
  | 0, _, _ => ([], .done)
  | n + 1, x, y =>
    if incr then
      match start.get .Z with
      | .error e => ([], .raised e)
      | .ok z0 =>
        match g.num? 'R', g.num? 'Z', g.num? 'X', g.num? 'Y' with
        | some r, some z, some dx, some dy =>
          Gen.andThen (hole fuel g (.ok z0) toR (z0 + r) (z0 + r + z) (some (x + dx)) (some (y + dy)))
            (holes fuel g start incr toR n (x + dx) (y + dy))
        | _, _, _, _ => ([], .raised .type)
    else
      match g.num? 'R', g.num? 'Z' with
      | some r, some z =>
        Gen.andThen (hole fuel g (start.get .Z) toR r z (g.num? 'X') (g.num? 'Y'))
          (holes fuel g start incr toR n x y)
      | _, _ => ([], .raised .type)

/-- `inner()` of `simplify_canned_cycle` before the decorator (transform.py:418-483). -/
def cannedInner (fuel : ℕ) (g : GCode) (start : Position) (incr toR : Bool) : Gen :=
  match g.get 'L' with
  | .error e => ([], .raised e)
  | .ok _ =>
    let n := match g.num? 'L' with
      | none => 1
      | some q => (truncQ q).toNat
    holes fuel g start incr toR n (start.val .X) (start.val .Y)

/-- `list(simplify_canned_cycle(g, start, plane, dist_mode, retract_mode, axes))`
(transform.py:386-485); `incr` is whether `dist_mode` is incremental, `toR` whether `retract_mode`
is G99, `fuel` bounds the iterations of the drilling loop of each hole. -/
def simplify (fuel : ℕ) (g : GCode) (start : Position) (plane : Cls) (incr toR : Bool) (axes : Finset Axis) : Gen :=
  if g.cls.isSub .cannedCycle = false then ([], .raised .assertion)
  else if plane.isSub .selectXYPlane = false then ([], .raised .notImpl)
  else if incr then abs2rel axes start (cannedInner fuel g start incr toR)
  else cannedInner fuel g start incr toR

end Pygcode
