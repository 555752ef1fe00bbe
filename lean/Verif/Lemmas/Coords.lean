import Verif.Lemmas.Process

/-!
# Coordinates of gcodes, motion in closed form, histories of calls
-/

namespace Pygcode
open Props

theorem Axis.ofLetter_letter (a : Axis) : Axis.ofLetter a.letter = some a := by cases a <;> decide

theorem Axis.ofLetter_eq {c : Char} {a : Axis} (h : Axis.ofLetter c = some a) : c = a.letter := by
  unfold Axis.ofLetter at h
  split_ifs at h <;> cases h <;> assumption

namespace Machine

theorem coords_lookup (ax : Finset Axis) (g : GCode) (a : Axis) :
    Position.lookup (coords ax g) a = if a ∈ ax then g.num? a.letter else none := by
  unfold Position.lookup coords GCode.num? GCode.param
  induction g.params with
  | nil => simp
  | cons w ws ih =>
    rw [List.filterMap_cons, List.find?_cons]
    cases ho : Axis.ofLetter w.letter with
    | none =>
      have : (w.letter == a.letter) = false := by
        rw [beq_eq_false_iff_ne]
        intro h
        rw [h, Axis.ofLetter_letter] at ho; cases ho
      simp only [this]
      exact ih
    | some b =>
      have hb := Axis.ofLetter_eq ho
      by_cases hab : b = a
      · subst hab
        by_cases hin : b ∈ ax
        · simp [hin, hb]
        · simp only [hin, if_false]
          rw [ih]; simp [hin]
      · have : (w.letter == a.letter) = false := by
          rw [beq_eq_false_iff_ne]
          intro h
          rw [h, Axis.ofLetter_letter] at ho
          exact hab (Option.some.inj ho).symm
        simp only [this]
        by_cases hin : b ∈ ax
        · simp only [hin, if_true]
          rw [List.find?_cons_of_neg (by simpa using hab)]
          exact ih
        · simp only [hin, if_false]
          exact ih

theorem coords_axes (ax : Finset Axis) (g : GCode) : ∀ c ∈ coords ax g, c.1 ∈ ax := by
  intro c hc
  unfold coords at hc
  obtain ⟨w, -, h⟩ := List.mem_filterMap.1 hc
  cases ho : Axis.ofLetter w.letter with
  | none => rw [ho] at h; cases h
  | some a =>
    rw [ho] at h
    by_cases ha : a ∈ ax
    · simp only [ha, if_true] at h; cases h; exact ha
    · simp only [ha, if_false] at h; cases h

theorem coords_nodup (ax : Finset Axis) (g : GCode) (hg : GOK g) :
    ((coords ax g).map Prod.fst).Nodup := by
  have h := hg.1
  unfold coords
  rw [List.map_filterMap]
  rw [List.Nodup, List.pairwise_filterMap]
  rw [List.Nodup, List.pairwise_map] at h
  refine h.imp ?_
  intro w w' hne b hb b' hb'
  have key : ∀ (w : Word) (b : Axis), Option.map Prod.fst (match Axis.ofLetter w.letter with
      | some a => if a ∈ ax then some (a, w.num) else none
      | none => none) = some b → w.letter = b.letter := by
    intro w b h
    cases ho : Axis.ofLetter w.letter with
    | none => rw [ho] at h; cases h
    | some a =>
      rw [ho] at h
      by_cases ha : a ∈ ax
      · simp only [ha, if_true, Option.map_some, Option.some.injEq] at h
        subst h; exact Axis.ofLetter_eq ho
      · simp only [ha, if_false] at h; cases h
  rintro rfl
  exact hne ((key w b hb).trans (key w' b hb').symm)

/-- A motion in closed form. -/
theorem motion_effect (m : Machine) (hm : m.WF) (hb : ¬ m.BadSys) (g : GCode) (hg : GOK g)
    (hp : g.cls.proc = .motion ∨ g.cls.proc = .rapid) :
    m.effect g = (m.goto (m.target (coords m.axes g)), none) := by
  have h := move_ok m hm hb (coords m.axes g) (coords_nodup m.axes g hg) (coords_axes m.axes g)
  unfold effect
  rcases hp with hp | hp <;> simp only [hp, h]

theorem motion_bad (m : Machine) (hb : m.BadSys) (cs : Coords) : m.move cs = (m, some .index) := by
  unfold move
  rw [pos_bad m hb]
  by_cases hi : m.incremental = true <;> simp [hi]

end Machine

/-- A call of one of the public methods of `Machine`, or of a gcode's `process`. -/
inductive Call
  | gcode (g : GCode)
  | gcodes (gs : List GCode) (mp : List Word)
  | str (t : List Char)
  | setMode (gs : List GCode)
  | moveTo (cs : Machine.Coords)
  | setPos (p : Position)

namespace Call
open Machine

/-- The call on a machine. -/
def run (m : Machine) : Call → MRes
  | gcode g => m.process g
  | gcodes gs mp => m.processGcodes gs mp
  | str t => m.processStr t
  | setMode gs => m.setMode gs
  | moveTo cs => m.move cs
  | setPos p => m.setPos p

/-- The gcodes given are well-formed; a position assigned has the machine's axes and the unit of
its positions. -/
def OK (ax : Finset Axis) (u : LUnit) : Call → Prop
  | gcode g => GOK g
  | gcodes gs _ => ∀ g ∈ gs, GOK g
  | str _ => True
  | setMode gs => ∀ g ∈ gs, GOK g
  | moveTo _ => True
  | setPos p => p.axes = ax ∧ p.unit = u ∧ p.WF

/-- Positions visited by a block of gcodes and modal parameters. -/
def visitedBlock (m : Machine) (gs : List GCode) (mp : List Word) : List Position :=
  match m.modalGcode mp with
  | .error _ => []
  | .ok og => m.visitedAll (execSort (gs ++ og.toList))

/-- Absolute positions reached during the call, in order. -/
def visited (m : Machine) : Call → List Position
  | gcode g => m.visited g
  | gcodes gs mp => visitedBlock m gs mp
  | str t =>
    match Line.ofText t with
    | .error _ => []
    | .ok l => visitedBlock m l.block.gcodes l.block.modalParams
  | setMode _ => []
  | moveTo cs => m.visitedMoves cs 1
  | setPos p =>
    match m.setPos p with
    | (m', none) => [m'.absPos]
    | (_, some _) => []

/-- A history: after an exception the next call starts from whatever machine is left. -/
def runAll (m : Machine) : List Call → Machine
  | [] => m
  | c :: cs => runAll (c.run m).1 cs

/-- Absolute positions reached during a history. -/
def visitedAll (m : Machine) : List Call → List Position
  | [] => []
  | c :: cs => c.visited m ++ visitedAll (c.run m).1 cs

end Call

namespace Machine

theorem w2g_gok {ws : List Word} {gs : List GCode} {un : List Word}
    (h : words2gcodes ws = .ok (gs, un)) : ∀ g ∈ gs, GOK g :=
  fun g hg => ⟨(C18_params ws gs un h g hg).1, (C18_params ws gs un h g hg).2.1⟩

theorem modalGcode_gok {m : Machine} {mp : List Word} {g : GCode}
    (h : m.modalGcode mp = .ok (some g)) : GOK g := by
  unfold modalGcode at h
  by_cases hmp : mp = []
  · rw [if_pos hmp] at h; cases h
  rw [if_neg hmp] at h
  cases hmo : m.mode.motion with
  | none =>
    rw [hmo] at h; simp only at h
    split_ifs at h; cases h
  | some g₀ =>
    rw [hmo] at h
    simp only at h
    cases hw : words2gcodes (g₀.word :: override g₀.params mp) with
    | error e => rw [hw] at h; cases h
    | ok r =>
      obtain ⟨gs, un⟩ := r
      rw [hw] at h
      simp only at h
      split_ifs at h
      match gs, h with
      | [], h => cases h
      | [g'], h => cases h; exact w2g_gok hw _ (by simp)
      | _ :: _ :: _, h => cases h

theorem block_gok {t : List Char} {v : Bool} {b : Block} (h : Block.ofText t v = .ok b) :
    ∀ g ∈ b.gcodes, GOK g := by
  unfold Block.ofText at h
  cases h1 : text2words (cleanText t) with
  | error e => rw [h1] at h; cases h
  | ok ws =>
    rw [h1] at h; simp only at h
    cases h2 : words2gcodes ws with
    | error e => rw [h2] at h; cases h
    | ok r =>
      obtain ⟨gs, mp⟩ := r
      rw [h2] at h; simp only at h
      split_ifs at h
      · cases h3 : Block.assertLoop [] [] gs with
        | error e => rw [h3] at h; cases h
        | ok _ => rw [h3] at h; cases h; exact w2g_gok h2
      · cases h; exact w2g_gok h2

theorem line_gok {t : List Char} {l : Line} (h : Line.ofText t = .ok l) :
    ∀ g ∈ l.block.gcodes, GOK g := by
  unfold Line.ofText at h
  cases h1 : Line.parts t with
  | error e => rw [h1] at h; cases h
  | ok r =>
    obtain ⟨bs, c, mac⟩ := r
    rw [h1] at h; simp only at h
    cases h2 : Block.ofText bs with
    | error e => rw [h2] at h; cases h
    | ok b => rw [h2] at h; cases h; exact block_gok h2

theorem sort_gok {gs : List GCode} {og : Option GCode} (h : ∀ g ∈ gs, GOK g)
    (ho : ∀ g, og = some g → GOK g) : ∀ g ∈ execSort (gs ++ og.toList), GOK g := by
  intro g hg
  have := (execSort_stable (gs ++ og.toList)).1.mem_iff.1 hg
  rcases List.mem_append.1 this with h' | h'
  · exact h g h'
  · exact ho g (by simpa using h')

theorem path_block (m : Machine) (hm : m.WF) (gs : List GCode) (mp : List Word)
    (hg : ∀ g ∈ gs, GOK g) : Path m (Call.visitedBlock m gs mp) (m.processGcodes gs mp).1 := by
  unfold Call.visitedBlock processGcodes
  cases h : m.modalGcode mp with
  | error e => exact path_refl m
  | ok og =>
    exact path_all _ (sort_gok hg (fun g hog => modalGcode_gok (by rw [h, hog]))) m hm

theorem path_call (m : Machine) (hm : m.WF) (c : Call) (hc : c.OK m.axes m.absPos.unit) :
    Path m (c.visited m) (c.run m).1 := by
  cases c with
  | gcode g => exact path_process m hm g hc
  | gcodes gs mp => exact path_block m hm gs mp hc
  | str t =>
    simp only [Call.visited, Call.run, processStr, processBlock]
    cases h : Line.ofText t with
    | error e => exact path_refl m
    | ok l => exact path_block m hm _ _ (line_gok h)
  | setMode gs =>
    simp only [Call.visited, Call.run]
    rw [setMode_eq m gs hc]
    exact .done _ _ (frame_withMode m _) rfl rfl rfl (fun h => withMode_wf m h _)
  | moveTo cs =>
    simp only [Call.visited, Call.run]
    rw [← moves_one]
    exact path_moves cs 1 m hm
  | setPos p =>
    simp only [Call.visited, Call.run]
    by_cases hb : m.BadSys
    · rw [setPos_bad m hb]; exact path_refl m
    · rw [setPos_ok m hm hb p hc.1 hc.2.1]
      refine .step _ _ m _ _ (Frame.refl m) rfl rfl rfl id ?_ (path_refl _)
      intro a ha
      rw [hc.2.2 a (hc.1 ▸ ha), off_outside m hm a ha, sysOff_outside m hm a ha]
      simp

theorem path_calls (cs : List Call) (m : Machine) (hm : m.WF)
    (hc : ∀ c ∈ cs, c.OK m.axes m.absPos.unit) :
    Path m (Call.visitedAll m cs) (Call.runAll m cs) := by
  induction cs generalizing m with
  | nil => exact path_refl m
  | cons c cs ih =>
    have hp := path_call m hm c (hc c List.mem_cons_self)
    refine hp.append (ih _ (hp.wf hm) ?_)
    intro d hd
    rw [hp.frame.axes, hp.frame.unit]
    exact hc d (List.mem_cons_of_mem _ hd)

end Machine

end Pygcode
