import Verif.Lemmas.Machine
import Verif.Lemmas.Regroup

/-!
# Facts about processing gcodes
-/

namespace Pygcode
open Props

/-- The modal copy of a well-formed gcode. -/
def copyOf (g : GCode) : GCode :=
  ⟨g.cls, g.word, g.params.filter (fun w => decide (w.letter ∈ g.cls.modalParams)), false⟩

theorem modalCopy_eq (g : GCode) (hg : GOK g) : g.modalCopy = .ok (copyOf g) := by
  obtain ⟨m, h, -, hc, hw, hws, hp, -⟩ := C23_modal_copy g hg
  rw [h]
  obtain ⟨c, w, p, s⟩ := m
  simp only at hc hw hws hp
  subst hc hw hws hp
  rfl

/-- Mode after setting one well-formed gcode. -/
def setIn (md : Mode) (g : GCode) : Mode :=
  match g.cls.group with
  | none => md
  | some k => Function.update md k (some (copyOf g))

theorem setOne_eq (md : Mode) (g : GCode) (hg : GOK g) : md.setOne g = (setIn md g, none) := by
  unfold Mode.setOne setIn
  cases g.cls.group with
  | none => rfl
  | some k => simp only [modalCopy_eq g hg]

theorem setLoop_eq (gs : List GCode) (hg : ∀ g ∈ gs, GOK g) (md : Mode) :
    md.setLoop gs = (gs.foldl setIn md, none) := by
  induction gs generalizing md with
  | nil => rfl
  | cons g gs ih =>
    unfold Mode.setLoop
    rw [setOne_eq md g (hg g List.mem_cons_self)]
    simp only
    rw [ih (fun x hx => hg x (List.mem_cons_of_mem _ hx))]
    rfl

theorem setMode_eq (md : Mode) (gs : List GCode) (hg : ∀ g ∈ gs, GOK g) :
    md.setMode gs = ((execSort gs).foldl setIn md, none) :=
  setLoop_eq _ (fun g h => hg g ((execSort_stable gs).1.mem_iff.1 h)) md

/-- Slot `k` after setting a list of gcodes in order. -/
theorem foldl_setIn (gs : List GCode) (md : Mode) (k : ℕ) :
    (gs.foldl setIn md) k =
      match (gs.filter (fun g => decide (g.cls.group = some k))).getLast? with
      | none => md k
      | some g => some (copyOf g) := by
  induction gs using List.reverseRecOn with
  | nil => rfl
  | append_singleton gs g ih =>
    rw [List.foldl_append, List.filter_append]
    simp only [List.foldl_cons, List.foldl_nil]
    by_cases hk : g.cls.group = some k
    · have : [g].filter (fun g => decide (g.cls.group = some k)) = [g] := by simp [hk]
      rw [this, List.getLast?_append]
      simp only [List.getLast?_singleton, Option.some_or]
      unfold setIn
      rw [hk]
      simp
    · have : [g].filter (fun g => decide (g.cls.group = some k)) = [] := by simp [hk]
      rw [this, List.append_nil, ← ih]
      unfold setIn
      cases hgr : g.cls.group with
      | none => rfl
      | some j =>
        simp only
        rw [Function.update_of_ne]
        rintro rfl
        exact hk hgr

namespace Machine

/-- The machine with another mode, and the coordinate system that the mode selects. -/
def withMode (m : Machine) (md : Mode) : Machine :=
  { m with mode := md, state := { m.state with
      cur := match md.coordSystem with
        | none => m.state.cur
        | some g => g.cls.coordSys.getD 0 } }

theorem setMode_eq (m : Machine) (gs : List GCode) (hg : ∀ g ∈ gs, GOK g) :
    m.setMode gs = (m.withMode ((execSort gs).foldl setIn m.mode), none) := by
  unfold setMode
  rw [Pygcode.setMode_eq m.mode gs hg]
  simp only [withMode]
  cases h : Mode.coordSystem ((execSort gs).foldl setIn m.mode) <;> rfl

theorem execSort_single (g : GCode) : execSort [g] = [g] := rfl

theorem process_eq (m : Machine) (g : GCode) (hg : GOK g) :
    m.process g = (m.withMode (setIn m.mode g)).effect g := by
  unfold process
  rw [setMode_eq m [g] (by simpa using hg), execSort_single]
  rfl

theorem withMode_wf (m : Machine) (hm : m.WF) (md : Mode) : (m.withMode md).WF :=
  ⟨hm.abs, hm.absWF, hm.sys, hm.off, hm.offWF, hm.lo, hm.hi⟩

/-- What processing never changes: axes, the flag, all offsets, the unit of the position. -/
structure Frame (m m' : Machine) : Prop where
  axes : m'.axes = m.axes
  ignore : m'.ignoreInvalid = m.ignoreInvalid
  systems : m'.state.systems = m.state.systems
  offset : m'.state.offset = m.state.offset
  unit : m'.absPos.unit = m.absPos.unit

theorem Frame.refl (m : Machine) : Frame m m := ⟨rfl, rfl, rfl, rfl, rfl⟩

theorem Frame.trans {a b c : Machine} (h : Frame a b) (h' : Frame b c) : Frame a c :=
  ⟨h'.axes.trans h.axes, h'.ignore.trans h.ignore, h'.systems.trans h.systems,
    h'.offset.trans h.offset, h'.unit.trans h.unit⟩

theorem frame_goto (m : Machine) (v : Axis → ℚ) : Frame m (m.goto v) := ⟨rfl, rfl, rfl, rfl, rfl⟩
theorem frame_withMode (m : Machine) (md : Mode) : Frame m (m.withMode md) := ⟨rfl, rfl, rfl, rfl, rfl⟩

/-- Positions visited by repeated moves: the absolute position after each `move_to` that succeeds. -/
def visitedMoves (m : Machine) (cs : Coords) : ℕ → List Position
  | 0 => []
  | n + 1 =>
    match m.move cs with
    | (m', none) => m'.absPos :: visitedMoves m' cs n
    | (_, some _) => []

/-- Positions visited by the specific effect of a gcode. -/
def visitedEffect (m : Machine) (g : GCode) : List Position :=
  match g.cls.proc with
  | .nothing => []
  | .motion => visitedMoves m ((coords m.axes g).map (fun c => (c.1, some c.2))) 1
  | .rapid => visitedMoves m ((coords m.axes g).map (fun c => (c.1, some c.2))) 1
  | .cancel => []
  | .canned =>
    match m.cannedCoords g with
    | .error _ => []
    | .ok cs =>
      match loopCount g with
      | .error _ => []
      | .ok n => visitedMoves m cs n

/-- Positions visited while processing a gcode. -/
def visited (m : Machine) (g : GCode) : List Position :=
  match m.setMode [g] with
  | (_, some _) => []
  | (m', none) => visitedEffect m' g

/-- Positions visited while processing gcodes in order, up to the first exception. -/
def visitedAll (m : Machine) : List GCode → List Position
  | [] => []
  | g :: gs =>
    visited m g ++
      match m.process g with
      | (_, some _) => []
      | (m', none) => visitedAll m' gs

/-- Path of a machine: after the positions `ps` it is `m'`. -/
inductive Path : Machine → List Position → Machine → Prop
  | done (m m' : Machine) (hf : Frame m m') (ha : m'.absPos = m.absPos) (hl : m'.rangeMin = m.rangeMin)
      (hh : m'.rangeMax = m.rangeMax) (hw : m.WF → m'.WF) : Path m [] m'
  | step (m m' m₁ : Machine) (v : Axis → ℚ) (ps : List Position) (hf : Frame m m₁)
      (ha : m₁.absPos = m.absPos) (hl : m₁.rangeMin = m.rangeMin) (hh : m₁.rangeMax = m.rangeMax)
      (hw : m.WF → m₁.WF) (hv : ∀ a ∉ m.axes, v a = 0)
      (h : Path (m₁.goto v) ps m') : Path m ((m₁.goto v).absPos :: ps) m'

theorem Path.wf {m m' : Machine} {ps : List Position} (h : Path m ps m') (hm : m.WF) : m'.WF := by
  induction h with
  | done _ _ _ _ _ _ hw => exact hw hm
  | step m m' m₁ v ps hf _ _ _ hw hv _ ih =>
    exact ih (goto_wf m₁ (hw hm) v (fun a ha => hv a (hf.axes ▸ ha)))

theorem Path.frame {m m' : Machine} {ps : List Position} (h : Path m ps m') : Frame m m' := by
  induction h with
  | done _ _ hf => exact hf
  | step m m' m₁ v ps hf _ _ _ _ _ _ ih => exact (hf.trans (frame_goto m₁ v)).trans ih

theorem Path.prepend {m m₁ m' : Machine} {ps : List Position} (h : Path m₁ ps m') (hf : Frame m m₁)
    (ha : m₁.absPos = m.absPos) (hl : m₁.rangeMin = m.rangeMin) (hh : m₁.rangeMax = m.rangeMax)
    (hw : m.WF → m₁.WF) : Path m ps m' := by
  cases h with
  | done _ _ hf' ha' hl' hh' hw' =>
    exact .done _ _ (hf.trans hf') (ha'.trans ha) (hl'.trans hl) (hh'.trans hh) (fun h => hw' (hw h))
  | step _ _ m₂ v ps hf' ha' hl' hh' hw' hv h =>
    exact .step _ _ m₂ v ps (hf.trans hf') (ha'.trans ha) (hl'.trans hl) (hh'.trans hh)
      (fun h => hw' (hw h)) (fun a ha => hv a (hf.axes ▸ ha)) h

theorem Path.append {m m₁ m' : Machine} {ps qs : List Position} (h : Path m ps m₁) (h' : Path m₁ qs m') :
    Path m (ps ++ qs) m' := by
  induction h with
  | done _ _ hf ha hl hh hw => exact h'.prepend hf ha hl hh hw
  | step m _ m₂ v ps hf ha hl hh hw hv _ ih => exact .step _ _ m₂ v _ hf ha hl hh hw hv (ih h')

theorem path_refl (m : Machine) : Path m [] m := .done _ _ (Frame.refl m) rfl rfl rfl id

theorem path_moves (cs : Coords) (n : ℕ) (m : Machine) (hm : m.WF) :
    Path m (visitedMoves m cs n) (m.moves cs n).1 := by
  induction n generalizing m with
  | zero => exact path_refl m
  | succ n ih =>
    unfold visitedMoves moves andThen
    rcases move_cases m hm cs with ⟨v, hv, -, h⟩ | ⟨e, h⟩
    · rw [h]
      exact .step _ _ m v _ (Frame.refl m) rfl rfl rfl id hv (ih _ (goto_wf m hm v hv))
    · rw [h]
      exact path_refl m

theorem moves_one (m : Machine) (cs : Coords) : m.moves cs 1 = m.move cs := by
  simp only [moves, andThen]
  rcases hm : m.move cs with ⟨m', _ | e⟩ <;> rfl

theorem path_effect (m : Machine) (hm : m.WF) (g : GCode) :
    Path m (visitedEffect m g) (m.effect g).1 := by
  unfold visitedEffect effect
  cases g.cls.proc with
  | nothing => exact path_refl m
  | motion => simp only; rw [← moves_one]; exact path_moves _ 1 m hm
  | rapid => simp only; rw [← moves_one]; exact path_moves _ 1 m hm
  | cancel =>
    simp only
    exact .done _ _ ⟨rfl, rfl, rfl, rfl, rfl⟩ rfl rfl rfl
      (fun hm => ⟨hm.abs, hm.absWF, hm.sys, hm.off, hm.offWF, hm.lo, hm.hi⟩)
  | canned =>
    simp only
    cases m.cannedCoords g with
    | error e => exact path_refl m
    | ok cs =>
      simp only
      cases loopCount g with
      | error e => exact path_refl m
      | ok n => exact path_moves cs n m hm

theorem path_process (m : Machine) (hm : m.WF) (g : GCode) (hg : GOK g) :
    Path m (visited m g) (m.process g).1 := by
  rw [process_eq m g hg]
  unfold visited
  rw [setMode_eq m [g] (by simpa using hg), execSort_single]
  exact (path_effect _ (withMode_wf m hm _) g).prepend (frame_withMode m _) rfl rfl rfl
    (fun h => withMode_wf m h _)

theorem path_all (gs : List GCode) (hg : ∀ g ∈ gs, GOK g) (m : Machine) (hm : m.WF) :
    Path m (visitedAll m gs) (m.processAll gs).1 := by
  induction gs generalizing m with
  | nil => exact path_refl m
  | cons g gs ih =>
    have hp := path_process m hm g (hg g List.mem_cons_self)
    unfold visitedAll processAll andThen
    rcases h : m.process g with ⟨m', _ | e⟩
    · rw [h] at hp
      exact hp.append (ih (fun x hx => hg x (List.mem_cons_of_mem _ hx)) m' (hp.wf hm))
    · rw [h] at hp
      simpa using hp

end Machine

end Pygcode
