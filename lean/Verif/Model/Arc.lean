import Verif.Model.Transform
import Mathlib.Analysis.SpecialFunctions.Trigonometric.Inverse
import Mathlib.Analysis.SpecialFunctions.Complex.Arg

/-!
# Linearization of arcs

Model of `linearize_arc` and the `ArcLinearize…` classes (transform.py:20-377), of the geometric
helpers (utils.py:8-64), of the planes' normals and quaternions (gcodes.py:861-930), and of the
parts of the `euclid3` package these use (not in /repo; modelled from its documented behaviour).

Simplification: floats are real numbers, so there is no rounding except the explicit `round`, and
`atan2` has no signed zeros.
-/

namespace Pygcode

/-! ## euclid3 -/

/-- `euclid3.Vector3`. -/
@[ext] structure V3 where
  x : ℝ
  y : ℝ
  z : ℝ

namespace V3

/-- `euclid3.Vector3.__add__` (used in transform.py:111-138, 261, 288, 311-319) -/
instance : Add V3 := ⟨fun a b => ⟨a.x + b.x, a.y + b.y, a.z + b.z⟩⟩
/-- `euclid3.Vector3.__sub__` (used in transform.py:107-109, 273, 294-328, 371) -/
instance : Sub V3 := ⟨fun a b => ⟨a.x - b.x, a.y - b.y, a.z - b.z⟩⟩
/-- `euclid3.Vector3.__neg__` (used in transform.py:126) -/
instance : Neg V3 := ⟨fun a => ⟨-a.x, -a.y, -a.z⟩⟩
/-- `euclid3.Vector3.__mul__` by a number (used in transform.py:108, 129, 302, 306, 336-337) -/
def mul (a : V3) (k : ℝ) : V3 := ⟨a.x * k, a.y * k, a.z * k⟩
/-- `euclid3.Vector3.dot` (used in utils.py:64, transform.py:336-337) -/
def dot (a b : V3) : ℝ := a.x * b.x + a.y * b.y + a.z * b.z
/-- `euclid3.Vector3.cross` (used in utils.py:29, transform.py:306) -/
def cross (a b : V3) : V3 := ⟨a.y * b.z - a.z * b.y, -a.x * b.z + a.z * b.x, a.x * b.y - a.y * b.x⟩
/-- `abs` of a `euclid3.Vector3` (used in transform.py:273, 298, 303-306, 321) -/
noncomputable def abs (a : V3) : ℝ := √(a.x ^ 2 + a.y ^ 2 + a.z ^ 2)
open Classical in
/-- `euclid3.Vector3.normalized` (used in utils.py:24-25, 45-48, 63, transform.py:108, 306): the zero vector
is returned as it is. -/
noncomputable def normalized (a : V3) : V3 :=
  if a.abs = 0 then a else ⟨a.x / a.abs, a.y / a.abs, a.z / a.abs⟩
/-- `euclid3.Vector3.angle` (used in utils.py:28) -/
noncomputable def angle (a b : V3) : ℝ := Real.arccos (a.dot b / (a.abs * b.abs))

end V3

/-- `euclid3.Quaternion`. -/
@[ext] structure Quat where
  w : ℝ
  x : ℝ
  y : ℝ
  z : ℝ

namespace Quat

/-- `euclid3.Quaternion()` (used in gcodes.py:888) -/
def one : Quat := ⟨1, 0, 0, 0⟩

/-- Product of two quaternions (used in utils.py:52). -/
def mul (a b : Quat) : Quat :=
  { x := a.x * b.w + a.y * b.z - a.z * b.y + a.w * b.x
    y := -a.x * b.z + a.y * b.w + a.z * b.x + a.w * b.y
    z := a.x * b.y - a.y * b.x + a.z * b.w + a.w * b.z
    w := -a.x * b.x - a.y * b.y - a.z * b.z + a.w * b.w }

/-- Rotation of a vector by a quaternion (used in utils.py:51, transform.py:127, 327-328). -/
def apply (q : Quat) (v : V3) : V3 :=
  ⟨q.w * q.w * v.x + 2 * (q.w * q.y) * v.z - 2 * (q.w * q.z) * v.y + q.x * q.x * v.x
      + 2 * (q.x * q.y) * v.y + 2 * (q.x * q.z) * v.z - q.z * q.z * v.x - q.y * q.y * v.x,
   2 * (q.x * q.y) * v.x + q.y * q.y * v.y + 2 * (q.y * q.z) * v.z + 2 * (q.w * q.z) * v.x
      - q.z * q.z * v.y + q.w * q.w * v.y - 2 * (q.w * q.x) * v.z - q.x * q.x * v.y,
   2 * (q.x * q.z) * v.x + 2 * (q.y * q.z) * v.y + q.z * q.z * v.z - 2 * (q.w * q.y) * v.x
      - q.y * q.y * v.z + 2 * (q.w * q.x) * v.y - q.x * q.x * v.z + q.w * q.w * v.z⟩

/-- `euclid3.Quaternion.new_rotate_axis` (used in utils.py:27-30, transform.py:126) -/
noncomputable def rotateAxis (angle : ℝ) (axis : V3) : Quat :=
  let a := axis.normalized
  let s := Real.sin (angle / 2)
  ⟨Real.cos (angle / 2), a.x * s, a.y * s, a.z * s⟩

end Quat

/-! ## utils.py -/

/-- `quat2align(to_align, with_this, normalize=False)` (utils.py:8-30) -/
noncomputable def quat2align (a b : V3) : Quat := Quat.rotateAxis (a.angle b) (a.cross b)

/-- `quat2coord_system` (utils.py:33-52) -/
noncomputable def quat2coordSystem (o1 o2 a1 a2 : V3) : Quat :=
  let o1 := o1.normalized
  let o2 := o2.normalized
  let a1 := a1.normalized
  let a2 := a2.normalized
  let q1 := quat2align o1 a1
  let q2 := quat2align (q1.apply o2) a2
  q2.mul q1

/-- `plane_projection` (utils.py:55-64) -/
noncomputable def planeProjection (v normal : V3) : V3 :=
  let n := normal.normalized
  v - n.mul (v.dot n)

/-! ## Planes -/

/-- `plane.normal` of a plane class (gcodes.py:882, 891, 903, 915; `None` for the UV, WU, VW planes). -/
def planeNormal : Cls → Option V3
  | .selectXYPlane => some ⟨0, 0, 1⟩
  | .selectZXPlane => some ⟨0, 1, 0⟩
  | .selectYZPlane => some ⟨1, 0, 0⟩
  | _ => none

/-- `plane.quat` of a plane class (gcodes.py:875, 888, 897-900, 909-912). -/
noncomputable def planeQuat : Cls → Option Quat
  | .selectXYPlane => some Quat.one
  | .selectZXPlane => some (quat2coordSystem ⟨1, 0, 0⟩ ⟨0, 1, 0⟩ ⟨0, 0, 1⟩ ⟨1, 0, 0⟩)
  | .selectYZPlane => some (quat2coordSystem ⟨1, 0, 0⟩ ⟨0, 1, 0⟩ ⟨0, 1, 0⟩ ⟨0, 0, 1⟩)
  | _ => none

/-! ## math -/

/-- `atan2(y, x)` (used in transform.py:329). -/
noncomputable def atan2 (y x : ℝ) : ℝ := Complex.arg ⟨x, y⟩

/-- `a % m` for floats and `m > 0` (used in transform.py:331-333). -/
noncomputable def fmod (a m : ℝ) : ℝ := a - m * ⌊a / m⌋

/-- `acos`, with its domain error (used in transform.py:154, 177, 200). -/
noncomputable def acosE (x : ℝ) : Except Err ℝ :=
  open Classical in if -1 ≤ x ∧ x ≤ 1 then .ok (Real.arccos x) else .error .value

/-- Division of floats. -/
noncomputable def divE (a b : ℝ) : Except Err ℝ :=
  open Classical in if b = 0 then .error .zeroDiv else .ok (a / b)

/-- `round(x, d)` (used in transform.py:375): nearest multiple of `10^-d`, ties to even. -/
noncomputable def roundTo (d : ℤ) (x : ℝ) : ℝ :=
  let y := x * 10 ^ d
  let f := ⌊y⌋
  open Classical in
  let k : ℤ := if y - f < 1 / 2 then f else if 1 / 2 < y - f then f + 1 else if Even f then f else f + 1
  k / 10 ^ d

/-! ## Methods -/

/-- The three subclasses of `ArcLinearizeMethod` (transform.py:141, 165, 188). -/
inductive ArcMethod
  | inside | outside | mid
  deriving DecidableEq

/-- The arguments of `ArcLinearizeMethod` (transform.py:26-37). -/
structure Arc where
  maxError : ℝ
  normal : V3
  pStart : V3
  pEnd : V3
  pCenter : V3
  radius : ℝ
  angle : ℝ
  hStart : V3
  hEnd : V3

namespace Arc

/-- `self.max_error` (transform.py:29, 39-40). -/
noncomputable def err (a : Arc) : ℝ :=
  open Classical in if a.radius < a.maxError then a.radius else a.maxError

/-- `chord_phase_offset` (transform.py:24, 150, 173, 195). -/
def phase : ArcMethod → Bool
  | .inside => false
  | .outside => true
  | .mid => true

/-- `max_wedge_angle` (transform.py:67-71, 152-154, 175-177, 197-200). -/
noncomputable def maxWedge (a : Arc) : ArcMethod → Except Err ℝ
  | .inside => do
    let x ← divE (a.radius - a.err) a.radius
    let y ← acosE x
    .ok |2 * y|
  | .outside => do
    let x ← divE a.radius (a.radius + a.err)
    let y ← acosE x
    .ok |2 * y|
  | .mid => do
    let d := a.err / 2
    let x ← divE (a.radius - d) (a.radius + d)
    let y ← acosE x
    .ok |2 * y|

/-- `wedge_count` (transform.py:73-83). -/
noncomputable def wedgeCount (a : Arc) (m : ArcMethod) : Except Err ℕ := do
  let w ← a.maxWedge m
  let x ← divE |a.angle| w
  .ok ⌈x⌉₊

/-- `wedge_angle` (transform.py:85-90). -/
noncomputable def wedgeAngle (a : Arc) (m : ArcMethod) : Except Err ℝ := do
  let n ← a.wedgeCount m
  divE a.angle n

/-- `outer_radius` (transform.py:98-102, 160-162, 183-185, 207-210). -/
noncomputable def outerRadius (a : Arc) : ArcMethod → Except Err ℝ
  | .inside => .ok a.radius
  | .outside => do
    let w ← a.wedgeAngle .outside
    let x ← divE a.radius (Real.cos (w / 2))
    .ok |x|
  | .mid => do
    let w ← a.wedgeAngle .mid
    .ok (a.radius + a.radius * Real.tan (w / 4) ^ 2)

/-- `cur_angle` of `iter_vertices` for `wedge_number = i + 1` (transform.py:115-119). -/
noncomputable def curAngle (m : ArcMethod) (w : ℝ) (i : ℕ) : ℝ :=
  if phase m then w * (i + 1 : ℕ) - w / 2 else w * (i + 1 : ℕ)

/-- `l_end` of `iter_vertices` (transform.py:125-130).  `arc_angle` is not zero when the loop body
runs (then `wedge_count` is positive), so the division in line 129 is an ordinary one. -/
noncomputable def vertex (a : Arc) (m : ArcMethod) (w : ℝ) (outer : V3) (i : ℕ) : V3 :=
  let cur := curAngle m w i
  let q := Quat.rotateAxis cur (-a.normal)
  let pEnd := q.apply outer + a.pCenter
  let h := a.hStart + (a.hEnd - a.hStart).mul (cur / a.angle)
  pEnd + h

/-- Lines from one point to the next (transform.py:132-138: each starts where the last one ended). -/
def lines : V3 → List V3 → List (V3 × V3)
  | _, [] => []
  | s, e :: es => (s, e) :: lines e es

/-- `list(method.iter_vertices())` (transform.py:105-138).  The loop leaves at the last wedge unless
the chords are offset. -/
noncomputable def iterVertices (a : Arc) (m : ArcMethod) : Except Err (List (V3 × V3)) := do
  let startVertex := a.pStart - a.pCenter
  let r ← a.outerRadius m
  let outer := startVertex.normalized.mul r
  let first := a.pCenter + startVertex + a.hStart
  let n ← a.wedgeCount m
  let is := (List.range n).takeWhile (fun i => phase m || i + 1 < n)
  if is = [] then .ok (lines first [a.pEnd + a.hEnd])
  else do
    let w ← a.wedgeAngle m
    .ok (lines first (is.map (a.vertex m w outer) ++ [a.pEnd + a.hEnd]))

end Arc

/-! ## linearize_arc -/

/-- `start_pos.vector` (machine.py:179-181); `_value` is a `defaultdict`, so an axis that the position
lacks counts as zero. -/
def Position.vector (p : Position) : V3 := ⟨p.val .X, p.val .Y, p.val .Z⟩

namespace GCode

/-- `assert_params` of arcs (gcodes.py:424-446).  Every `raise` there evaluates the undefined name
`arc_gcode` for its message, so what is raised is a `NameError`. -/
def assertArcParams (g : GCode) : Except Err Unit :=
  let has := fun l => (g.param l).isSome
  if ¬ (has 'X' ∨ has 'Y' ∨ has 'Z') then .error .name
  else if (has 'I' ∨ has 'J' ∨ has 'K') ∧ has 'R' then .error .name
  else if ¬ (has 'I' ∨ has 'J' ∨ has 'K' ∨ has 'R') then .error .name
  else if has 'R' ∧ g.num? 'R' = some 0 then .error .name
  else .ok ()

/-- End point of the arc (transform.py:253-261). -/
def arcEnd (g : GCode) (s : V3) (incr : Bool) : V3 :=
  if incr then s + ⟨(g.num? 'X').getD 0, (g.num? 'Y').getD 0, (g.num? 'Z').getD 0⟩
  else ⟨((g.num? 'X').map (↑)).getD s.x, ((g.num? 'Y').map (↑)).getD s.y, ((g.num? 'Z').map (↑)).getD s.z⟩

/-- Centre given by I, J, K (transform.py:283-288). -/
def arcCenter (g : GCode) (s : V3) (arcIncr : Bool) : V3 :=
  let c : V3 := ⟨(g.num? 'I').getD 0, (g.num? 'J').getD 0, (g.num? 'K').getD 0⟩
  if arcIncr then c + s else c

open Classical in
/-- The body of `linearize_arc` up to the construction of the method (transform.py:251-358), for a
plane with the given normal and quaternion. -/
noncomputable def arcOf (g : GCode) (s : V3) (normal : V3) (quat : Quat) (incr arcIncr : Bool) (e : ℝ) :
    Except Err Arc := do
  let end_ := g.arcEnd s incr
  let ps := planeProjection s normal
  let pe := planeProjection end_ normal
  g.assertArcParams
  -- radius, and the centre given by I, J, K (transform.py:267-298)
  let given := planeProjection (g.arcCenter s arcIncr) normal
  let radius ← (match g.num? 'R' with
    | some r => if (ps - pe).abs < e then .error .param else .ok |(r : ℝ)|
    | none => .ok (((ps - given).abs + (pe - given).abs) / 2) : Except Err ℝ)
  -- centre (transform.py:300-324)
  let mid := (pe - ps).mul (1 / 2)
  if radius < mid.abs then .error .param
  else do
    let rm := (mid.normalized.cross normal).mul √(radius ^ 2 - mid.abs ^ 2)
    let c₀ := ps + mid - rm
    let c₁ := ps + mid + rm
    let center := match g.num? 'R' with
      | some r => if (g.cls.isSub .arcMoveCW = true ↔ r < 0) then c₀ else c₁
      | none => if (c₀ - given).abs < (c₁ - given).abs then c₀ else c₁
    -- angle (transform.py:326-333)
    let u := quat.apply (ps - center)
    let v := quat.apply (pe - center)
    let a1 := atan2 u.y u.x
    let a2 := atan2 v.y v.x
    let angle := if g.cls.isSub .arcMoveCW then fmod (a1 - a2) (2 * Real.pi)
      else -fmod (a2 - a1) (2 * Real.pi)
    .ok { maxError := e, normal := normal, pStart := ps, pEnd := pe, pCenter := center, radius := radius,
          angle := angle, hStart := normal.mul (s.dot normal), hEnd := normal.mul (end_.dot normal) }

end GCode

/-- The rounded increments of incremental mode (transform.py:366-377). -/
noncomputable def roundedDeltas (d : ℤ) : V3 → List V3 → List V3
  | _, [] => []
  | cur, v :: vs =>
    let δ := v - cur
    let δ' : V3 := ⟨roundTo d δ.x, roundTo d δ.y, roundTo d δ.z⟩
    δ' :: roundedDeltas d (cur + δ') vs

open Classical in
/-- `list(linearize_arc(…))` (transform.py:218-377), each yielded `GCodeLinearMove` as the vector of
its X, Y and Z.  `incr`, `arcIncr`: whether `dist_mode`, `arc_dist_mode` are the incremental ones. -/
noncomputable def linearizeArc (g : GCode) (start : Position) (plane : Option Cls) (method : Option ArcMethod)
    (incr arcIncr : Bool) (e : ℝ) (d : ℤ) : List V3 × Status :=
  match method with
  | none => ([], .raised .name)
  | some m =>
    let pl := plane.getD .selectXYPlane
    if ¬ (g.cls.isSub .arcMove ∧ pl.isSub .planeSelect ∧ 0 < e) then ([], .raised .assertion)
    else
      let s := start.vector
      match planeNormal pl, planeQuat pl with
      | some normal, some quat =>
        match g.arcOf s normal quat incr arcIncr e with
        | .error x => ([], .raised x)
        | .ok a =>
          match a.iterVertices m with
          | .error x => ([], .raised x)
          | .ok ls => (if incr then roundedDeltas d s (ls.map Prod.snd) else ls.map Prod.snd, .done)
      | _, _ => ([], .raised .attribute)

end Pygcode
