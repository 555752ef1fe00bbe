import Verif.Model.GCodes
import Verif.Model.ClassNames
import Verif.Model.ClassDocs

/-!
# Finding and listing the gcode classes: `src/pygcode/gcodes.py:1362-1456`

Over an arbitrary hierarchy of classes, so that classes defined by users of the package
("To create user g-codes, inherit from this class", gcodes.py:1350) are covered; `builtin` is the
hierarchy of gcodes.py itself.
-/

namespace Pygcode

/-- Comparison of `str` values: by code points, a proper beginning first. -/
def textLe : List Char → List Char → Bool
  | [], _ => true
  | _ :: _, [] => false
  | a :: s, b :: t => a.toNat < b.toNat || (a.toNat == b.toNat && textLe s t)

/-- What is read of classes.  Simplification: one base class each. -/
structure Hier (K : Type) where
  /-- `cls.__name__` -/
  name : K → List Char
  /-- the base class, if it is a gcode class -/
  parent : K → Option K
  /-- `cls.word_key` -/
  key : K → Option Word
  /-- `cls.word_matches` -/
  test : K → Option (Word → Bool)
  /-- `cls.__doc__` -/
  doc : K → Option (List Char)

namespace Hier

variable {K : Type} [DecidableEq K]

/-- `sorted(root_class.__subclasses__(), key=lambda c: c.__name__)` (gcodes.py:1370), `defs` being the
classes in the order in which they were defined. -/
def children (H : Hier K) (defs : List K) (c : K) : List K :=
  (defs.filter (fun d => H.parent d = some c)).insertionSort (fun a b => textLe (H.name a) (H.name b))

/-- `_subclasses_level(root_class, recursion_level)` (gcodes.py:1362-1372), with fuel. -/
def levels (H : Hier K) (defs : List K) : ℕ → K → ℕ → List (K × ℕ)
  | 0, _, _ => []
  | n + 1, c, l => (c, l) :: (H.children defs c).flatMap (fun d => levels H defs n d (l + 1))

/-- `_subclasses_level(root_class)`: no chain of base classes is longer than the number of classes. -/
def listing (H : Hier K) (defs : List K) (c : K) : List (K × ℕ) := H.levels defs (defs.length + 1) c 0

/-- `_subclasses(root_class)` (gcodes.py:1375-1378). -/
def subclasses (H : Hier K) (defs : List K) (c : K) : List K := (H.listing defs c).map Prod.fst

/-- `"%-5s" % text` -/
def pad5 (s : List Char) : List Char := s ++ List.replicate (5 - s.length) ' '

/-- A line of `_gcode_class_infostr` (gcodes.py:1389-1399), without the line break. -/
def infoLine (H : Hier K) (pre : List Char) (e : K × ℕ) : List Char :=
  pre ++ pad5 (((H.key e.1).map Word.str).getD []) ++ [' '] ++ (List.replicate e.2 [' ', ' ']).flatten ++ ['-', ' '] ++
    H.name e.1 ++ [':', ' '] ++ (H.doc e.1).getD []

/-- `_gcode_class_infostr(base_class, prefix)` (gcodes.py:1381-1400). -/
def infoStr (H : Hier K) (defs : List K) (pre : List Char) (c : K) : List Char :=
  (H.listing defs c).flatMap (fun e => H.infoLine pre e ++ ['\n'])

end Hier

/-- The module variables (gcodes.py:1403-1405) and the classes defined so far. -/
structure Registry (K : Type) where
  /-- the classes deriving from the root, in the order of definition -/
  defs : List K
  /-- `_gcode_maps_created` -/
  created : Bool := false
  /-- `_gcode_word_map` -/
  wordMap : List (Word × K) := []
  /-- `_gcode_function_list` -/
  funList : List ((Word → Bool) × K) := []

namespace Registry

variable {K : Type} [DecidableEq K]

/-- The loop of `build_maps` (gcodes.py:1416-1424) over the classes left: what has been filled in
stays when an exception is raised. -/
def fill (H : Hier K) (r : Registry K) : List K → Registry K × Option Err
  | [] => ({ r with created := true }, none)
  | c :: cs =>
    match H.key c with
    | some k =>
      if (r.wordMap.map Prod.fst).contains k then (r, some .runtime)
      else fill H { r with wordMap := r.wordMap ++ [(k, c)] } cs
    | none =>
      match H.test c with
      | some f => fill H { r with funList := r.funList ++ [(f, c)] } cs
      | none => fill H r cs

/-- `build_maps()` (gcodes.py:1408-1427). -/
def build (H : Hier K) (root : K) (r : Registry K) : Registry K × Option Err :=
  fill H { r with wordMap := [], funList := [] } (H.subclasses r.defs root)

/-- The lookup proper (gcodes.py:1442-1456). -/
def find (r : Registry K) (exhaustive : Bool) (w : Word) : Option K :=
  if !exhaustive && !(['G', 'M', 'F', 'S', 'T', 'N', 'O'].contains w.letter) then none
  else
    match r.wordMap.find? (fun e => e.1 == w) with
    | some e => some e.2
    | none => (r.funList.find? (fun e => e.1 w)).map Prod.snd

/-- What is done with the classes. -/
inductive Event (K : Type)
  /-- a class statement -/
  | define (c : K)
  /-- `word_gcode_class(word, exhaustive)` -/
  | look (exhaustive : Bool) (w : Word)
  /-- `build_maps()` -/
  | build

/-- One event (gcodes.py:1431-1456 for a lookup): the state afterwards, and the outcome. -/
def step (H : Hier K) (root : K) (r : Registry K) : Event K → Registry K × Except Err (Option K)
  | .define c => ({ r with defs := r.defs ++ [c] }, .ok none)
  | .build =>
    match r.build H root with
    | (r', some e) => (r', .error e)
    | (r', none) => (r', .ok none)
  | .look ex w =>
    if r.created then (r, .ok (r.find ex w))
    else
      match r.build H root with
      | (r', some e) => (r', .error e)
      | (r', none) => (r', .ok (r'.find ex w))

/-- A history of events, exceptions being caught outside: the final state and the outcomes. -/
def run (H : Hier K) (root : K) (r : Registry K) : List (Event K) → Registry K × List (Except Err (Option K))
  | [] => (r, [])
  | e :: es =>
    let s := step H root r e
    let t := run H root s.1 es
    (t.1, s.2 :: t.2)

end Registry

/-- The classes of gcodes.py. -/
def builtin : Hier Cls where
  name := fun c => c.pyName.toList
  parent := Cls.parent
  key := fun c => c.wordKey.map keyWord
  test := fun c => c.matcher.map Matcher.test
  doc := Cls.doc

end Pygcode
