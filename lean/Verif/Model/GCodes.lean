import Verif.Model.Classes
import Verif.Model.Lines
import Mathlib.Data.List.Sort

/-!
# Gcodes and blocks: `src/pygcode/gcodes.py`, `src/pygcode/block.py`, `src/pygcode/line.py`
-/

namespace Pygcode

namespace Cls

/-- Attribute lookup through the base classes, with fuel (the chains have at most 4 classes,
`chain_root` in `Lemmas/Classes.lean`). -/
def climb {α : Type} (f : Own → Option α) : ℕ → Cls → Option α
  | 0, _ => none
  | n + 1, c =>
    match f c.own with
    | some a => some a
    | none =>
      match c.parent with
      | none => none
      | some p => climb f n p

/-- Depth bound of the class hierarchy. -/
def depth : ℕ := 5

/-- `cls.word_key` (`None` at the root). -/
def wordKey (c : Cls) : Option (Char × ℚ) := climb Own.wordKey depth c
/-- `cls.default_word`. -/
def defaultWord (c : Cls) : Option (Char × ℚ) := climb Own.defaultWord depth c
/-- `cls.word_matches`. -/
def matcher (c : Cls) : Option Matcher := climb Own.matcher depth c
/-- `cls.word_letter` (gcodes.py:145). -/
def letter (c : Cls) : Char := (climb Own.letter depth c).getD 'G'
/-- `cls.word_value_configurable` (gcodes.py:146). -/
def configurable (c : Cls) : Bool := (climb Own.configurable depth c).getD false
/-- `cls.param_letters` (gcodes.py:149). -/
def params (c : Cls) : List Char := (climb Own.params depth c).getD []
/-- `cls.modal_param_letters` (gcodes.py:153). -/
def modalParams (c : Cls) : List Char := (climb Own.modalParams depth c).getD []
/-- `cls.modal_group` (gcodes.py:152). -/
def group (c : Cls) : Option ℕ := (climb Own.group depth c).getD none
/-- `cls.exec_order` (gcodes.py:156). -/
def order (c : Cls) : ℕ := (climb Own.order depth c).getD 999
/-- `cls._process`. -/
def proc (c : Cls) : Proc := (climb Own.proc depth c).getD .nothing
/-- `cls.assert_params` is the arc check (gcodes.py:424-445). -/
def checksArc (c : Cls) : Bool := (climb Own.checksArc depth c).getD false
/-- `cls.coord_system_id` (gcodes.py:1127). -/
def coordSys (c : Cls) : Option ℕ := climb Own.coordSys depth c
/-- `cls.unit_id` (gcodes.py:847, 853). -/
def unitId (c : Cls) : Option ℕ := climb Own.unitId depth c
/-- `cls.normal_axis` (gcodes.py:879). -/
def normalAxis (c : Cls) : Option Char := climb Own.normalAxis depth c
/-- `cls.plane_axes` (gcodes.py:881). -/
def planeAxes (c : Cls) : List Char := (climb Own.planeAxes depth c).getD []

/-- The class and its base classes, nearest first (`cls.__mro__` without `object`). -/
def ancestors : ℕ → Cls → List Cls
  | 0, _ => []
  | n + 1, c => c :: (match c.parent with | none => [] | some p => ancestors n p)

/-- `issubclass(c, d)`, so `isinstance(g, d)` for `g` of class `c`. -/
def isSub (c d : Cls) : Bool := (ancestors depth c).contains d

end Cls

/-- `word_matches(w)`. -/
def Matcher.test (m : Matcher) (w : Word) : Bool :=
  match m with
  | .letter l => w.letter == l
  | .range l lo hi => w.letter == l && decide (lo ≤ w.num) && decide (w.num ≤ hi)
  | .oneOf l vs => w.letter == l && vs.contains w.num

/-- `Word(letter, value)` of a class table entry (all of them have letters with float values). -/
def keyWord (k : Char × ℚ) : Word := ⟨k.1, .num k.2⟩

/-! ## Looking up the class of a word (gcodes.py:1403-1456) -/

/-- `_gcode_word_map` and `_gcode_function_list` (gcodes.py:1404-1405). -/
structure Maps where
  /-- dict, in insertion order -/
  wordMap : List (Word × Cls)
  /-- list of pairs -/
  funList : List (Matcher × Cls)

/-- Body of the loop of `build_maps` (gcodes.py:1416-1424). -/
def buildStep (m : Maps) (c : Cls) : Except Err Maps :=
  match c.wordKey with
  | some k =>
    if (m.wordMap.map Prod.fst).contains (keyWord k) then .error .runtime
    else .ok { m with wordMap := m.wordMap ++ [(keyWord k, c)] }
  | none =>
    match c.matcher with
    | some f => .ok { m with funList := m.funList ++ [(f, c)] }
    | none => .ok m

/-- `build_maps` (gcodes.py:1408-1427) for the classes in the given order. -/
def buildMapsFrom (cs : List Cls) : Except Err Maps := cs.foldlM buildStep ⟨[], []⟩

/-- `build_maps()`. -/
def buildMaps : Except Err Maps := buildMapsFrom Cls.all

/-- `word_gcode_class` after `build_maps` (gcodes.py:1442-1456). -/
def lookupIn (m : Maps) (exhaustive : Bool) (w : Word) : Option Cls :=
  if !exhaustive && !(['G', 'M', 'F', 'S', 'T', 'N', 'O'].contains w.letter) then none
  else
    match m.wordMap.find? (fun e => e.1 == w) with
    | some e => some e.2
    | none => (m.funList.find? (fun e => e.1.test w)).map Prod.snd

/-- The maps built by `build_maps` (it does not raise: `C15_build`). -/
def maps : Maps :=
  match buildMaps with
  | .ok m => m
  | .error _ => ⟨[], []⟩

/-- `word_gcode_class(word, exhaustive)` (gcodes.py:1431-1456). -/
def wordClassE (exhaustive : Bool) (w : Word) : Option Cls := lookupIn maps exhaustive w

/-- `word_gcode_class(word)`. -/
def wordClass (w : Word) : Option Cls := wordClassE false w

/-! ## GCode objects (gcodes.py:140-341) -/

/-- A `GCode` instance: its class, defining word, parameters (the dict `params` in insertion order;
the key of an entry is the letter of its word) and `_whitespace_prefix`. -/
structure GCode where
  cls : Cls
  word : Word
  params : List Word
  ws : Bool := false
  deriving DecidableEq, Repr

namespace GCode

/-- `self.params[letter]`, if present. -/
def param (g : GCode) (l : Char) : Option Word := g.params.find? (fun w => w.letter == l)

/-- `add_parameter` (gcodes.py:245-256). -/
def addParam (g : GCode) (w : Word) : Except Err GCode :=
  if !g.cls.params.contains w.letter then .error .param
  else if (g.params.map Word.letter).contains w.letter then .error .param
  else .ok { g with params := g.params ++ [w] }

/-- `cls(word, *params)` (gcodes.py:158-181). -/
def make (c : Cls) (w : Word) (ps : List Word) : Except Err GCode :=
  ps.foldlM addParam ⟨c, w, [], false⟩

/-- `_default_word` (gcodes.py:214-219). -/
def defaultWord (c : Cls) : Except Err Word :=
  match c.defaultWord with
  | some k => Word.ofNum k.1 k.2
  | none =>
    match c.wordKey with
    | some k => .ok (keyWord k)
    | none => .error .assertion

/-- `cls(**params)` (gcodes.py:158-183): the class's default word, and parameters by letter, one after
the other. -/
def makeKw (c : Cls) (ps : List (Char × ℚ)) : Except Err GCode :=
  match defaultWord c with
  | .error e => .error e
  | .ok w => ps.foldlM (fun g p =>
      match Word.ofNum p.1 p.2 with
      | .error e => .error e
      | .ok pw => g.addParam pw) ⟨c, w, [], false⟩

/-- `cls(number, *params)` (gcodes.py:163-181): the value of the class's own word, if it may be chosen;
otherwise a number is not a `Word`. -/
def makeNum (c : Cls) (v : ℚ) (ps : List Word) : Except Err GCode :=
  if c.configurable then
    match Word.ofNum c.letter v with
    | .error e => .error e
    | .ok w => make c w ps
  else .error .assertion

/-- `sorted(self.params.keys())` and the words (gcodes.py:203-204). -/
def sortedParams (g : GCode) : List Word :=
  g.params.insertionSort (fun a b => a.letter.toNat ≤ b.letter.toNat)

/-- `__str__` (gcodes.py:198-212). -/
def str (g : GCode) : List Char :=
  (if g.ws then List.replicate g.word.str.length ' ' else g.word.str) ++
    g.sortedParams.flatMap (fun w => ' ' :: w.str)

/-- `__eq__` (gcodes.py:222-226): equal words and equal `params` dicts (same keys, equal words). -/
def eq (a b : GCode) : Bool :=
  a.word == b.word &&
  (a.params.length == b.params.length && a.params.all (fun w => b.param w.letter == some w))

/-- Reading `g.K` for a letter (`__getattr__`, gcodes.py:269-280). -/
def get (g : GCode) (l : Char) : Except Err (Option Val) :=
  if g.cls.params.contains l then .ok ((g.param l).map Word.val) else .error .attribute

/-- Numeric parameter or `none` (for letters with number values). -/
def num? (g : GCode) (l : Char) : Option ℚ := (g.param l).map Word.num

/-- `g.K = v` for a letter `K` and a number `v` (`__setattr__`, gcodes.py:282-290).  For a letter
that is not a parameter of the class Python sets a plain attribute, which has no effect here. -/
def set (g : GCode) (l : Char) (v : ℚ) : Except Err GCode :=
  if g.cls.params.contains l then
    match Word.ofNum l v with
    | .error e => .error e
    | .ok w =>
      if (g.params.map Word.letter).contains l then
        .ok { g with params := g.params.map (fun p => if p.letter = l then w else p) }
      else g.addParam w
  else .ok g

/-- `modal_copy` (gcodes.py:296-301). -/
def modalCopy (g : GCode) : Except Err GCode :=
  make g.cls g.word (g.params.filter (fun w => g.cls.modalParams.contains w.letter))

/-- `get_param_dict(letters)` (gcodes.py:303-317), as the list of its items. -/
def paramDict (g : GCode) (letters : Option (List Char)) : List (Char × Val) :=
  (g.params.filter (fun w => match letters with | none => true | some ls => ls.contains w.letter)).map
    (fun w => (w.letter, w.val))

/-- `assert_params` (gcodes.py:259-267, 424-445).  In `GCodeArcMove` the messages of all four
errors mention the undefined name `arc_gcode`, so a `NameError` is what is raised. -/
def assertParams (g : GCode) : Except Err Unit :=
  if !g.cls.checksArc then .ok ()
  else
    let has := fun (ls : List Char) => g.params.any (fun w => ls.contains w.letter)
    if !has ['X', 'Y', 'Z'] then .error .name
    else if has ['I', 'J', 'K'] && has ['R'] then .error .name
    else if !has ['I', 'J', 'K', 'R'] then .error .name
    else if has ['R'] && g.num? 'R' == some 0 then .error .name
    else .ok ()

/-- Words of the gcode: its own and its parameters. -/
def words (g : GCode) : List Word := g.word :: g.params

end GCode

/-- `sorted(gcodes)`: stable sort by `exec_order` (gcodes.py:232-242). -/
def execSort (gs : List GCode) : List GCode :=
  gs.insertionSort (fun a b => a.cls.order ≤ b.cls.order)

/-! ## Words to gcodes (gcodes.py:1459-1538) -/

/-- An entry of `word_info_list` (gcodes.py:1486-1494); `index` is its position. -/
structure Info where
  word : Word
  cls : Option Cls
  owner : Option ℕ
  deriving DecidableEq, Repr

/-- `word_info_list` (gcodes.py:1486-1494). -/
def infoList (ws : List Word) : List Info := ws.map (fun w => ⟨w, wordClass w, none⟩)

/-- Body of the linking loop for the entry at index `i` (gcodes.py:1499-1506). -/
def linkStep (infos : List Info) (i : ℕ) : List Info :=
  match (infos[i]?).bind Info.cls with
  | none => infos
  | some c =>
    infos.mapIdx (fun j p =>
      if i < j ∧ p.word.letter ∈ c.params then { p with owner := some i, cls := none } else p)

/-- The linking loop (gcodes.py:1499-1506). -/
def link (infos : List Info) : List Info := (List.range infos.length).foldl linkStep infos

/-- `parameter_map[k]` (gcodes.py:1509-1513). -/
def paramMap (infos : List Info) (k : Option ℕ) : List Word :=
  (infos.filter (fun p => p.cls.isNone && p.owner == k)).map Info.word

/-- `words2gcodes` (gcodes.py:1459-1525). -/
def words2gcodes (ws : List Word) : Except Err (List GCode × List Word) :=
  let infos := link (infoList ws)
  let mk : ℕ → List Info → Except Err (List GCode) := fun i => build infos i
  match mk 0 infos with
  | .error e => .error e
  | .ok gs => .ok (gs, paramMap infos none)
where
  /-- creation of the gcode instances (gcodes.py:1516-1523) -/
  build (infos : List Info) : ℕ → List Info → Except Err (List GCode)
    | _, [] => .ok []
    | i, p :: r =>
      match p.cls with
      | none => build infos (i + 1) r
      | some c =>
        match GCode.make c p.word (paramMap infos (some i)) with
        | .error e => .error e
        | .ok g =>
          match build infos (i + 1) r with
          | .error e => .error e
          | .ok gs => .ok (g :: gs)

/-- `text2gcodes` (gcodes.py:1528-1538). -/
def text2gcodes (t : List Char) : Except Err (List GCode) :=
  match text2words t with
  | .error e => .error e
  | .ok ws =>
    match words2gcodes ws with
    | .error e => .error e
    | .ok (gs, unused) => if unused = [] then .ok gs else .error .wordStr

/-- `split_gcodes` (gcodes.py:1543-1610). -/
def splitGcodes (gs : List GCode) (c : Cls) (sortList : Bool) :
    List GCode × List GCode × List GCode :=
  let l := if sortList then execSort gs else gs
  match l.findIdx? (fun g => g.cls.isSub c) with
  | none => (l, [], [])
  | some i => (l.take i, (l.drop i).take 1, l.drop (i + 1))

/-! ## Block (block.py) -/

/-- `Block` (block.py:7-111). -/
structure Block where
  words : List Word
  gcodes : List GCode
  modalParams : List Word
  deriving DecidableEq, Repr

namespace Block

/-- Loop of `_assert_gcodes` (block.py:58-79): words and modal groups seen so far. -/
def assertLoop : List Word → List ℕ → List GCode → Except Err Unit
  | _, _, [] => .ok ()
  | ws, grps, g :: r =>
    if ws.contains g.word then .error .assertion
    else
      match g.cls.group with
      | none => assertLoop (g.word :: ws) grps r
      | some k => if grps.contains k then .error .assertion
                  else assertLoop (g.word :: ws) (k :: grps) r

/-- `Block(text, verify=verify)` (block.py:10-50); empty text gives an empty block. -/
def ofText (t : List Char) (verify : Bool := true) : Except Err Block :=
  match text2words (cleanText t) with
  | .error e => .error e
  | .ok ws =>
    match words2gcodes ws with
    | .error e => .error e
    | .ok (gs, mp) =>
      if verify then
        match assertLoop [] [] gs with
        | .error e => .error e
        | .ok _ => .ok ⟨ws, gs, mp⟩
      else .ok ⟨ws, gs, mp⟩

/-- `block.<letter>` (`__getattr__`, block.py:81-93). -/
def letter (b : Block) (l : Char) : Except Err (Option Word) :=
  if (wordKind l).isSome then .ok (b.words.find? (fun w => w.letter == l)) else .error .attribute

/-- `len(block)` (block.py:95-103). -/
def len (b : Block) : ℕ := b.gcodes.length + (if b.modalParams = [] then 0 else 1)

/-- `__str__` (block.py:110-111). -/
def str (b : Block) : List Char :=
  joinWith [' '] (b.gcodes.map GCode.str ++ b.modalParams.map Word.str)

end Block

/-! ## Line (line.py) -/

/-- `Line` (line.py:6-42). -/
structure Line where
  block : Block
  comment : Option Comment
  macro? : Option (List Char)
  deriving DecidableEq, Repr

namespace Line

/-- The text parts of a line (line.py:20-25): block text, comment, macro. -/
def parts (t : List Char) : Except Err (List Char × Option Comment × Option (List Char)) :=
  match lineSplit t with
  | none => .error .attribute
  | some (bc, m) => .ok ((splitLine bc).1, (splitLine bc).2, m)

/-- `Line(text)` (line.py:10-28). -/
def ofText (t : List Char) : Except Err Line :=
  match parts t with
  | .error e => .error e
  | .ok (bs, c, m) =>
    match Block.ofText bs with
    | .error e => .error e
    | .ok b => .ok ⟨b, c, m⟩

/-- `__str__` (line.py:41-42): the truthy ones of block (if it has words), comment and macro. -/
def str (l : Line) : List Char :=
  joinWith [' '] ((if l.block.words = [] then [] else [l.block.str]) ++
    (l.comment.map Comment.str).toList ++ l.macro?.toList)

end Line

end Pygcode
