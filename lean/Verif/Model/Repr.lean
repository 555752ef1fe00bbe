import Verif.Model.Machine
import Verif.Model.Chars

/-!
# What positions and states show

`Position.words` and `__repr__` of positions, coordinate systems and states (machine.py:169-171, 184-188, 200-204, 256-261).
-/

namespace Pygcode

/-- The axes in the order of their letters. -/
def Axis.sorted : List Axis := [.A, .B, .C, .U, .V, .W, .X, .Y, .Z]

/-- `words` (machine.py:169-171): the words of the axes, sorted.  Letters are all different, so values do not matter for
the order (words.py:47-48). -/
def Position.words (p : Position) : List Word :=
  (Axis.sorted.filter (· ∈ p.axes)).map (fun a => ⟨a.letter, .num (p.val a)⟩)

/-- `' '.join(str(w) for w in self.words)` (machine.py:187). -/
def Position.coordText (p : Position) : List Char := joinWith [' '] (p.words.map Word.str)

/-- `repr(position)` (machine.py:184-188). -/
def Position.repr (p : Position) : List Char := chars! "<Position: " ++ p.coordText ++ ['>']

/-- `repr(coordinate_system)` (machine.py:200-204), its offset given. -/
def systemRepr (offset : Position) : List Char := chars! "<CoordinateSystem: offset=" ++ offset.repr ++ ['>']

/-- `repr(state)` (machine.py:256-261). -/
def State.repr (s : State) : List Char :=
  chars! "<State: coord_sys[" ++ (if s.cur = 0 then chars! "None" else Nat.toDigits 10 s.cur) ++ chars! "]; offset=" ++
    s.offset.repr ++ ['>']

end Pygcode
