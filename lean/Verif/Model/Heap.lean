import Verif.Model.Machine

/-!
# Shared word objects

The rest of the model treats gcodes as values.  In Python a gcode refers to its word objects, and
other objects may refer to the same ones: `modal_copy` (gcodes.py:296-301) hands the parameters of the
gcode on, and so does `words2gcodes`.  Assigning to a parameter (`gcode.X = 3`, gcodes.py:282-290)
changes the word object itself.  This module has the part of the program in which this matters, with
words in numbered cells: gcodes, modes, the processing of gcodes and of texts, and assignments.

Not modelled: assignments to the words of a `Block`, and replacing `gcode.word` or entries of
`gcode.params` directly.
-/

namespace Pygcode
open Machine

/-- The word objects made so far. -/
structure Store where
  cell : ℕ → Word
  /-- number of cells in use -/
  next : ℕ

namespace Store

/-- New words, and where they are. -/
def alloc (h : Store) (ws : List Word) : Store × List ℕ :=
  (⟨fun r => if r < h.next then h.cell r else (ws[r - h.next]?).getD (h.cell r), h.next + ws.length⟩,
    (List.range ws.length).map (h.next + ·))

/-- `word.value = …` (words.py:82-84): the letter stays. -/
def write (h : Store) (r : ℕ) (w : Word) : Store := { h with cell := Function.update h.cell r w }

end Store

/-- A `GCode` object (gcodes.py:158-183): `word` and `params` are references.  The key of a parameter
is the letter of its word. -/
structure Obj where
  cls : Cls
  word : ℕ
  params : List ℕ
  deriving DecidableEq, Repr

namespace Obj

/-- What the object says at present. -/
def view (h : Store) (o : Obj) : GCode := ⟨o.cls, h.cell o.word, o.params.map h.cell, false⟩

/-- `cls(word, *params)` (gcodes.py:158-181): the object refers to the given words. -/
def make (h : Store) (c : Cls) (w : ℕ) (ps : List ℕ) : Except Err Obj :=
  match GCode.make c (h.cell w) (ps.map h.cell) with
  | .error e => .error e
  | .ok _ => .ok ⟨c, w, ps⟩

/-- `modal_copy` (gcodes.py:296-301). -/
def modalCopy (h : Store) (o : Obj) : Except Err Obj :=
  make h o.cls o.word (o.params.filter (fun r => o.cls.modalParams.contains (h.cell r).letter))

/-- `o.l = v` (gcodes.py:282-290): the word changes if there is one, else a new one is added. -/
def assign (h : Store) (o : Obj) (l : Char) (v : ℚ) : Store × Obj × Option Err :=
  if o.cls.params.contains l then
    match Word.ofNum l v with
    | .error e => (h, o, some e)
    | .ok w =>
      match o.params.find? (fun r => (h.cell r).letter == l) with
      | some r => (h.write r w, o, none)
      | none => ((h.alloc [w]).1, { o with params := o.params ++ (h.alloc [w]).2 }, none)
  else (h, o, none)

/-- `sorted(gcodes)` (gcodes.py:232-242). -/
def execSort (os : List Obj) : List Obj := os.insertionSort (fun a b => a.cls.order ≤ b.cls.order)

/-- `parameter_map[k]` (gcodes.py:1509-1513). -/
def paramMap (infos : List Info) (rs : List ℕ) (k : Option ℕ) : List ℕ :=
  ((infos.zip rs).filter (fun p => p.1.cls.isNone && p.1.owner == k)).map Prod.snd

/-- `words2gcodes` (gcodes.py:1459-1525). -/
def words2gcodes (h : Store) (rs : List ℕ) : Except Err (List Obj × List ℕ) :=
  let infos := link (infoList (rs.map h.cell))
  match build infos 0 (infos.zip rs) with
  | .error e => .error e
  | .ok os => .ok (os, paramMap infos rs none)
where
  /-- creation of the gcode instances (gcodes.py:1516-1523) -/
  build (infos : List Info) : ℕ → List (Info × ℕ) → Except Err (List Obj)
    | _, [] => .ok []
    | i, p :: r =>
      match p.1.cls with
      | none => build infos (i + 1) r
      | some c =>
        match make h c p.2 (paramMap infos rs (some i)) with
        | .error e => .error e
        | .ok g =>
          match build infos (i + 1) r with
          | .error e => .error e
          | .ok gs => .ok (g :: gs)

end Obj

/-- A machine whose mode refers to gcode objects (machine.py:293, 307-319); the field `mode` of `base`
is not used. -/
structure HMachine where
  base : Machine
  slots : ℕ → Option Obj

/-- Outcome of a method. -/
abbrev HRes := HMachine × Option Err

namespace HMachine

/-- The machine as it is at present. -/
def view (h : Store) (m : HMachine) : Machine :=
  { m.base with mode := fun k => (m.slots k).map (Obj.view h) }

/-- A machine with no modes set. -/
def ofBase (m : Machine) : HMachine := ⟨m, fun _ => none⟩

/-- Continue with `f` unless an exception was raised. -/
def andThen (r : HRes) (f : HMachine → HRes) : HRes :=
  match r with
  | (m, some e) => (m, some e)
  | (m, none) => f m

/-- `set_mode(o)` (machine.py:307-319, 401-407) for one gcode. -/
def setMode (h : Store) (m : HMachine) (o : Obj) : HRes :=
  let r : HRes := match o.cls.group with
    | none => (m, none)
    | some k =>
      match o.modalCopy h with
      | .error e => (m, some e)
      | .ok c => ({ m with slots := Function.update m.slots k (some c) }, none)
  andThen r fun m =>
    match m.slots 12 with
    | none => (m, none)
    | some g => ({ m with base := { m.base with state := { m.base.state with cur := g.cls.coordSys.getD 0 } } }, none)

/-- `_process` (gcodes.py:339-341, 403-404, 411-412, 465-466, 525-526, 545-561): only `G80` changes the
mode. -/
def effect (h : Store) (m : HMachine) (o : Obj) : HRes :=
  (⟨((m.view h).effect (o.view h)).1,
    if o.cls.proc = .cancel then Function.update m.slots 1 none else m.slots⟩,
    ((m.view h).effect (o.view h)).2)

/-- `gcode.process(machine)` (gcodes.py:320-337). -/
def process (h : Store) (m : HMachine) (o : Obj) : HRes := andThen (m.setMode h o) (fun m => m.effect h o)

/-- Processing in the given order (machine.py:499-500). -/
def processAll (h : Store) (m : HMachine) : List Obj → HRes
  | [] => (m, none)
  | o :: os => andThen (m.process h o) (fun m => processAll h m os)

/-- `params.update(…)` (machine.py:424), one word. -/
def overrideOne (h : Store) (ps : List ℕ) (r : ℕ) : List ℕ :=
  if (ps.map (fun p => (h.cell p).letter)).contains (h.cell r).letter then
    ps.map (fun p => if (h.cell p).letter = (h.cell r).letter then r else p)
  else ps ++ [r]

/-- `modal_gcode(modal_params)` (machine.py:411-451). -/
def modalGcode (h : Store) (m : HMachine) (mp : List ℕ) : Except Err (Option Obj) :=
  if mp = [] then .ok none
  else
    match m.slots 1 with
    | none => if m.base.ignoreInvalid then .ok none else .error .invalidState
    | some g =>
      match Obj.words2gcodes h (g.word :: mp.foldl (overrideOne h) g.params) with
      | .error e => .error e
      | .ok (gs, un) =>
        if un ≠ [] ∧ m.base.ignoreInvalid = false then .error .invalidState
        else
          match gs with
          | [] => .ok none
          | [g'] => .ok (some g')
          | _ => .error .assertion

/-- `process_gcodes(*gcodes, modal_params=mp)` (machine.py:485-500). -/
def processGcodes (h : Store) (m : HMachine) (os : List Obj) (mp : List ℕ) : HRes :=
  match m.modalGcode h mp with
  | .error e => (m, some e)
  | .ok og => m.processAll h (Obj.execSort (os ++ og.toList))

/-- `process_str(text)` (machine.py:513-518): the line makes new words. -/
def processStr (h : Store) (m : HMachine) (t : List Char) : Store × HRes :=
  match Line.ofText t with
  | .error e => (h, m, some e)
  | .ok l =>
    match Obj.words2gcodes (h.alloc l.block.words).1 (h.alloc l.block.words).2 with
    | .error e => ((h.alloc l.block.words).1, m, some e)
    | .ok (os, mp) => ((h.alloc l.block.words).1, m.processGcodes (h.alloc l.block.words).1 os mp)

end HMachine

/-! ## Sessions -/

/-- What a program using the library does. -/
inductive GUse
  /-- `g = cls(word, *params)`, with new words; the gcodes are numbered -/
  | make (c : Cls) (w : Word) (ps : List Word)
  /-- `g.l = v` for the gcode with number `i` -/
  | assign (i : ℕ) (l : Char) (v : ℚ)
  /-- `machine.process_gcodes(…)` -/
  | run (is : List ℕ)
  /-- `machine.process_str(text)` -/
  | text (t : List Char)

/-- Words, gcodes and a machine. -/
structure Session where
  store : Store
  objs : List Obj
  mach : HMachine

namespace Session

/-- One use, and the exception raised, if any. -/
def step (s : Session) : GUse → Session × Option Err
  | .make c w ps =>
    let h := (s.store.alloc (w :: ps)).1
    match Obj.make h c s.store.next ((s.store.alloc (w :: ps)).2.tail) with
    | .error e => ({ s with store := h }, some e)
    | .ok o => (⟨h, s.objs ++ [o], s.mach⟩, none)
  | .assign i l v =>
    match s.objs[i]? with
    | none => (s, none)
    | some o =>
      (⟨(o.assign s.store l v).1, s.objs.set i (o.assign s.store l v).2.1, s.mach⟩, (o.assign s.store l v).2.2)
  | .run is =>
    let r := s.mach.processGcodes s.store (is.filterMap (fun i => s.objs[i]?)) []
    ({ s with mach := r.1 }, r.2)
  | .text t =>
    let r := s.mach.processStr s.store t
    (⟨r.1, s.objs, r.2.1⟩, r.2.2)

/-- Several, whatever is raised. -/
def steps (s : Session) : List GUse → Session
  | [] => s
  | u :: us => (s.step u).1.steps us

end Session

/-- The same with gcodes as values, where nothing is shared. -/
structure VSession where
  objs : List GCode
  mach : Machine

namespace VSession

/-- One use, and the exception raised, if any. -/
def step (s : VSession) : GUse → VSession × Option Err
  | .make c w ps =>
    match GCode.make c w ps with
    | .error e => (s, some e)
    | .ok g => ({ s with objs := s.objs ++ [g] }, none)
  | .assign i l v =>
    match s.objs[i]? with
    | none => (s, none)
    | some g =>
      match g.set l v with
      | .error e => (s, some e)
      | .ok g' => ({ s with objs := s.objs.set i g' }, none)
  | .run is =>
    let r := s.mach.processGcodes (is.filterMap (fun i => s.objs[i]?)) []
    ({ s with mach := r.1 }, r.2)
  | .text t =>
    let r := s.mach.processStr t
    ({ s with mach := r.1 }, r.2)

/-- Several, whatever is raised. -/
def steps (s : VSession) : List GUse → VSession
  | [] => s
  | u :: us => (s.step u).1.steps us

end VSession

end Pygcode
