import Verif.Props.NormArc

/-!
# C90: options that only change how lines are shown
-/

namespace Pygcode
open Props Machine Spec

/-! ## Specification -/

/-- A line to be printed: gcodes, left-over words, comment and macro. -/
structure OutLine where
  gcodes : List GCode
  params : List Word
  comment : Option Comment
  mac : Option (List Char)

/-- Its parts that are not empty, separated by blanks. -/
def OutLine.text (p : OutLine) (squeeze : Bool) : List Char :=
  let body := joinWith [' '] (p.gcodes.map GCode.str ++ p.params.map Word.str)
  let body := if squeeze then body.filter (fun x => !isSpace x) else body
  joinWith [' '] ((if body = [] then [] else [body]) ++ (p.comment.map Comment.str).toList ++ p.mac.toList)

/-- The piece without the gcodes with a listed word. -/
def OutLine.without (p : OutLine) (ws : List Word) : OutLine :=
  { p with gcodes := p.gcodes.filter (fun g => decide (g.word ∉ ws)) }

/-- The piece without its comment. -/
def OutLine.mute (p : OutLine) : OutLine := { p with comment := none }

/-- The lines shown for the pieces. -/
def NormOpts.shown (o : NormOpts) (ps : List OutLine) : List (List Char) :=
  let ps := ps.map (fun p => p.without o.rmGcodes)
  let ps := if o.rmComments then ps.map OutLine.mute else ps
  let ls := ps.map (fun p => p.text o.rmWhitespace)
  if o.rmBlanks then ls.filter (fun l => decide (l ≠ [])) else ls

/-- The options other than `--rm_comments`, `--rm_blanks`, `--rm_whitespace`, `--rm_gcodes`. -/
def NormOpts.task (o : NormOpts) : NormOpts :=
  { o with rmComments := false, rmBlanks := false, rmWhitespace := false, rmGcodes := [] }

/-! ## Lines of the script -/

theorem shown_append (o : NormOpts) (ps qs : List OutLine) : o.shown (ps ++ qs) = o.shown ps ++ o.shown qs := by
  unfold NormOpts.shown
  simp only
  split_ifs <;> simp

theorem shown_one (o : NormOpts) (gs : List GCode) (mp : List Word) (c : Option Comment) (mac : Option (List Char)) :
    o.shown [⟨gs, mp, c, mac⟩] = o.writeOne gs mp c mac := by
  have hg : gs.filter (fun g => decide (g.word ∉ o.rmGcodes)) =
      (if o.rmGcodes = [] then gs else gs.filter (fun g => decide (g.word ∉ o.rmGcodes))) := by
    split_ifs with h
    · rw [h]; simp
    · rfl
  have ht : o.lineText gs mp c mac = (if o.rmComments then
      (OutLine.without ⟨gs, mp, c, mac⟩ o.rmGcodes).mute.text o.rmWhitespace
      else (OutLine.without ⟨gs, mp, c, mac⟩ o.rmGcodes).text o.rmWhitespace) := by
    unfold NormOpts.lineText OutLine.mute OutLine.without OutLine.text
    simp only
    rw [← hg]
    by_cases hc : o.rmComments = true
    · rw [if_pos hc, if_pos hc]
    · rw [if_neg hc, if_neg hc]
  unfold NormOpts.shown NormOpts.writeOne
  rw [ht]
  by_cases hc : o.rmComments = true <;> by_cases hb : o.rmBlanks = true <;> simp [hc, hb, List.filter_cons]

/-- All runs for one task end alike, and show the same pieces. -/
def Uniform (o₀ : NormOpts) (F : NormOpts → NormRes) : Prop :=
  ∃ ps a s, ∀ o : NormOpts, o.task = o₀.task → F o = ⟨o.shown ps, a, s⟩

theorem shown_nil (o : NormOpts) : o.shown [] = [] := by
  unfold NormOpts.shown
  simp

theorem Uniform.pure {o₀ : NormOpts} (m : Machine) (s : Status) : Uniform o₀ (fun _ => ⟨[], m, s⟩) :=
  ⟨[], m, s, fun o _ => by rw [shown_nil]⟩

theorem Uniform.andThen {o₀ : NormOpts} {F : NormOpts → NormRes} (hF : Uniform o₀ F) {G : NormOpts → Machine → NormRes}
    (hG : ∀ m, Uniform o₀ (fun o => G o m)) : Uniform o₀ (fun o => (F o).andThen (G o)) := by
  obtain ⟨ps, a, s, h⟩ := hF
  cases s with
  | done =>
    obtain ⟨qs, b, s, h'⟩ := hG a
    refine ⟨ps ++ qs, b, s, fun o ho => ?_⟩
    have h2 := h' o ho
    simp only at h2
    simp only [h o ho, NormRes.andThen, h2, shown_append]
  | raised e => exact ⟨ps, a, .raised e, fun o ho => by simp only [h o ho, NormRes.andThen]⟩
  | running => exact ⟨ps, a, .running, fun o ho => by simp only [h o ho, NormRes.andThen]⟩

theorem Uniform.congr {o₀ : NormOpts} {F G : NormOpts → NormRes} (hG : Uniform o₀ G)
    (h : ∀ o : NormOpts, o.task = o₀.task → F o = G o) : Uniform o₀ F := by
  obtain ⟨ps, a, s, h'⟩ := hG
  exact ⟨ps, a, s, fun o ho => (h o ho).trans (h' o ho)⟩

theorem Uniform.ofM {o₀ : NormOpts} (r : MRes) : Uniform o₀ (fun _ => .ofM r) := by
  obtain ⟨m, - | e⟩ := r
  · exact .pure m .done
  · exact .pure m (.raised e)

theorem Uniform.ite {o₀ : NormOpts} (c : Prop) [Decidable c] {F G : NormOpts → NormRes} (hF : Uniform o₀ F)
    (hG : Uniform o₀ G) : Uniform o₀ (fun o => if c then F o else G o) := by
  by_cases h : c
  · simpa only [if_pos h] using hF
  · simpa only [if_neg h] using hG

section
variable {o₀ : NormOpts}

theorem task_full {o : NormOpts} (h : o.task = o₀.task) : o.full = o₀.full := (congrArg NormOpts.full h :)
theorem task_singles {o : NormOpts} (h : o.task = o₀.task) : o.singles = o₀.singles := (congrArg NormOpts.singles h :)
theorem task_expand {o : NormOpts} (h : o.task = o₀.task) : o.cannedExpand = o₀.cannedExpand := (congrArg NormOpts.cannedExpand h :)
theorem task_codes {o : NormOpts} (h : o.task = o₀.task) : o.cannedCodes = o₀.cannedCodes := (congrArg NormOpts.cannedCodes h :)
theorem task_invalid {o : NormOpts} (h : o.task = o₀.task) : o.rmInvalid = o₀.rmInvalid := (congrArg NormOpts.rmInvalid h :)
theorem task_xy {o : NormOpts} (h : o.task = o₀.task) : o.zeroXY = o₀.zeroXY := (congrArg NormOpts.zeroXY h :)
theorem task_z {o : NormOpts} (h : o.task = o₀.task) : o.zeroZ = o₀.zeroZ := (congrArg NormOpts.zeroZ h :)
theorem task_safety {o : NormOpts} (h : o.task = o₀.task) : o.safety = o₀.safety := (congrArg NormOpts.safety h :)
theorem task_spindle {o : NormOpts} (h : o.task = o₀.task) : o.spindleOff = o₀.spindleOff := (congrArg NormOpts.spindleOff h :)

theorem uniform_write (m : Machine) (gs : List GCode) (mp : List Word) (c : Option Comment) (mac : Option (List Char)) :
    Uniform o₀ (fun o => .put m (o.write gs mp c mac)) := by
  by_cases h1 : o₀.full = true ∧ mp ≠ []
  · refine (Uniform.pure m (.raised .assertion)).congr (fun o ho => ?_)
    unfold NormOpts.write
    rw [task_full ho, if_pos h1]
    rfl
  by_cases h2 : o₀.singles = true ∧ 1 < gs.length
  · refine ⟨(execSort gs).map (fun g => ⟨[g], [], c, none⟩), m, .done, fun o ho => ?_⟩
    unfold NormOpts.write
    simp only
    rw [task_full ho, if_neg h1, task_singles ho, if_pos h2]
    unfold NormRes.put
    simp only
    congr 1
    induction execSort gs with
    | nil => simp [shown_nil]
    | cons g gs ih =>
      rw [List.flatMap_cons, ih, List.map_cons, ← shown_one, ← shown_append]
      rfl
  · refine ⟨[⟨gs, mp, c, mac⟩], m, .done, fun o ho => ?_⟩
    unfold NormOpts.write
    simp only
    rw [task_full ho, if_neg h1, task_singles ho, if_neg h2, shown_one]
    rfl

theorem uniform_putProcess (m : Machine) (gs : List GCode) : Uniform o₀ (fun o => o.putProcess m gs) := by
  unfold NormOpts.putProcess
  exact .ite _ (.pure m .done) ((uniform_write m gs [] none none).andThen (fun m => .ofM _))

theorem uniform_putAll (m : Machine) (s : Status) (gs : List GCode) : Uniform o₀ (fun o => o.putAll m gs s) := by
  induction gs generalizing m with
  | nil => exact .pure m s
  | cons g gs ih =>
    unfold NormOpts.putAll
    exact (uniform_write m [g] [] none none).andThen (fun m => ih m)

theorem omitGen_task {o : NormOpts} (h : o.task = o₀.task) (r : Gen) : o.omitGen r = o₀.omitGen r := by
  unfold NormOpts.omitGen
  rw [task_full h]

/-- The line around what replaces a gcode. -/
theorem uniform_replaced (m : Machine) (befores afters : List GCode) (g : GCode) (d : Comment) (k : Option Comment)
    (F : NormOpts → Machine → NormRes) (hF : ∀ m, Uniform o₀ (fun o => F o m)) :
    Uniform o₀ (fun o => (o.putProcess m befores).andThen fun m =>
      (NormRes.put m (o.write [] [] (some d))).andThen fun m =>
      (F o m).andThen fun m =>
      (NormRes.ofM (m.processGcodes [g] [])).andThen fun m =>
      (o.putProcess m afters).andThen fun m =>
      if k = none then ⟨[], m, .done⟩ else NormRes.put m (o.write [] [] k)) := by
  refine (uniform_putProcess m befores).andThen (fun m => ?_)
  refine (uniform_write m [] [] (some d) none).andThen (fun m => ?_)
  refine (hF m).andThen (fun m => ?_)
  refine (Uniform.ofM _).andThen (fun m => ?_)
  refine (uniform_putProcess m afters).andThen (fun m => ?_)
  exact .ite _ (.pure m .done) (uniform_write m [] [] k none)

theorem uniform_expandLine (fuel : ℕ) (m : Machine) (gs : List GCode) (c : Option Comment) :
    Uniform o₀ (fun o => o.expandLine fuel m gs c) := by
  unfold NormOpts.expandLine
  split
  · rename_i befores g afters h
    refine uniform_replaced m befores afters g _ c (fun o m => o.putExpansion fuel m g) (fun m => ?_)
    unfold NormOpts.putExpansion
    cases m.pos with
    | error e => exact .pure m _
    | ok p =>
      refine (uniform_putAll m (o₀.expansion fuel m p g).2 (o₀.expansion fuel m p g).1).congr (fun o ho => ?_)
      have : o.expansion fuel m p g = o₀.expansion fuel m p g := omitGen_task ho _
      simp only [this]
  · exact .pure m _

variable (x : ArcOpts) (fl : Floats)

theorem uniform_arcLine (m : Machine) (gs : List GCode) (c : Option Comment) :
    Uniform o₀ (fun o => o.arcLine x fl m gs c) := by
  unfold NormOpts.arcLine
  split
  · rename_i befores g afters h
    refine uniform_replaced m befores afters g _ c (fun o m => o.putArc x fl m g) (fun m => ?_)
    unfold NormOpts.putArc
    cases m.pos with
    | error e => exact .pure m _
    | ok p =>
      simp only
      cases x.method g.word with
      | error e => exact .pure m _
      | ok am =>
        refine (uniform_putAll m (o₀.arcMoves x fl m p am g).2 (o₀.arcMoves x fl m p am g).1).congr (fun o ho => ?_)
        have : o.arcMoves x fl m p am g = o₀.arcMoves x fl m p am g := omitGen_task ho _
        simp only [this]
  · exact .pure m _

theorem uniform_plainLine (m : Machine) (l : Line) (gs : List GCode) : Uniform o₀ (fun o => o.plainLine m l gs) := by
  unfold NormOpts.plainLine
  refine Uniform.andThen ?_ (fun m => .ofM _)
  cases hf : o₀.full with
  | true =>
    refine (uniform_write m gs [] l.comment l.macro?).congr (fun o ho => ?_)
    rw [if_pos ((task_full ho).trans hf)]
  | false =>
    refine (uniform_write m l.block.gcodes l.block.modalParams l.comment l.macro?).congr (fun o ho => ?_)
    rw [if_neg (by rw [task_full ho, hf]; simp)]

theorem uniform_lineA (fuel : ℕ) (m : Machine) (t : List Char) : Uniform o₀ (fun o => o.lineA x fl fuel m t) := by
  unfold NormOpts.lineA
  cases Line.ofText t with
  | error e => exact .pure m _
  | ok l =>
    simp only
    have key : ∀ l : Line, Uniform o₀ (fun o => match m.blockModalGcodes l.block with
        | .error e => ⟨[], m, .raised e⟩
        | .ok gs =>
          if x.on && gs.any (fun g => g.cls.isSub .arcMove) then o.arcLine x fl m gs l.comment
          else if o.cannedExpand && gs.any (fun g => decide (g.word ∈ o.cannedCodes)) then
            o.expandLine fuel m gs l.comment
          else o.plainLine m l gs) := by
      intro l
      cases m.blockModalGcodes l.block with
      | error e => exact .pure m _
      | ok gs =>
        simp only
        refine .ite _ (uniform_arcLine x fl m gs l.comment) ?_
        refine (Uniform.ite ((o₀.cannedExpand && gs.any (fun g => decide (g.word ∈ o₀.cannedCodes))) = true)
          (uniform_expandLine fuel m gs l.comment) (uniform_plainLine m l gs)).congr (fun o ho => ?_)
        rw [task_expand ho, task_codes ho]
    cases hi : o₀.rmInvalid with
    | false =>
      refine (key l).congr (fun o ho => ?_)
      rw [if_neg (by rw [task_invalid ho, hi]; simp)]
      rfl
    | true =>
      cases hc : m.cleanBlock l.block with
      | error e =>
        refine (Uniform.pure m (.raised e)).congr (fun o ho => ?_)
        rw [if_pos ((task_invalid ho).trans hi)]
        rfl
      | ok b =>
        refine (key { l with block := b }).congr (fun o ho => ?_)
        rw [if_pos ((task_invalid ho).trans hi)]
        rfl

theorem uniform_loopA (fuel : ℕ) (ts : List (List Char)) : ∀ m : Machine, Uniform o₀ (fun o => o.loopA x fl fuel m ts) := by
  induction ts with
  | nil => exact fun m => .pure m .done
  | cons t ts ih =>
    intro m
    unfold NormOpts.loopA
    exact (uniform_lineA x fl fuel m t).andThen ih

theorem uniform_finish (m : Machine) : Uniform o₀ (fun o => o.finish m) := by
  unfold NormOpts.finish
  refine Uniform.andThen (Uniform.andThen (Uniform.andThen (Uniform.andThen ?_ (fun m => ?_)) (fun m => ?_)) (fun m => ?_)) (fun m => ?_)
  · unfold NormOpts.finishComment
    refine (Uniform.ite ((o₀.spindleOff || o₀.zeroXY || o₀.zeroZ) = true)
      (uniform_write m [] [] (some (.brackets "pygcode-norm: finalizing".toList)) none) (.pure m .done)).congr (fun o ho => ?_)
    rw [task_spindle ho, task_xy ho, task_z ho]
  · unfold NormOpts.finishAbsolute
    refine (Uniform.ite (((o₀.zeroXY || o₀.zeroZ) && !(match m.mode.distance with
      | some d => d.cls.isSub .absoluteDistanceMode
      | none => false)) = true)
      (uniform_write m [⟨.absoluteDistanceMode, ⟨'G', .num 90⟩, [], false⟩] [] none none) (.pure m .done)).congr (fun o ho => ?_)
    rw [task_xy ho, task_z ho]
    rfl
  · unfold NormOpts.finishSpindle
    refine (Uniform.ite (o₀.spindleOff = true)
      (uniform_write m [⟨.stopSpindle, ⟨'M', .num 5⟩, [], false⟩] [] (some (.brackets "spindle off".toList)) none) (.pure m .done)).congr (fun o ho => ?_)
    rw [task_spindle ho]
  · unfold NormOpts.finishXY
    have key : Uniform o₀ (fun o => match o₀.safeHeight m with
        | .error e => ⟨[], m, .raised e⟩
        | .ok h =>
          (NormRes.put m (o.write [rapidTo [(.Z, h)]] [] (some (.brackets "move to safe height".toList)))).andThen
            fun m => .put m (o.write [rapidTo [(.X, 0), (.Y, 0)]] [] (some (.brackets "move to planar origin".toList)))) := by
      cases o₀.safeHeight m with
      | error e => exact .pure m _
      | ok h => exact (uniform_write m _ _ _ _).andThen (fun m => uniform_write m _ _ _ _)
    refine (Uniform.ite (o₀.zeroXY = true) key (.pure m .done)).congr (fun o ho => ?_)
    have : o.safeHeight m = o₀.safeHeight m := by
      unfold NormOpts.safeHeight
      rw [task_safety ho]
    rw [task_xy ho, this]
    rfl
  · unfold NormOpts.finishZ
    refine (Uniform.ite (o₀.zeroZ = true)
      (uniform_write m [rapidTo [(.Z, 0)]] [] (some (.brackets "move to zero height".toList)) none) (.pure m .done)).congr (fun o ho => ?_)
    rw [task_z ho]

end

/-- **C90**: `--rm_comments`, `--rm_blanks`, `--rm_whitespace` and `--rm_gcodes` have no influence on what the script
does, or how it ends, only on what is shown of the lines that it prints. -/
theorem C90_pieces (x : ArcOpts) (fl : Floats) (fuel : ℕ) (md : Mode) (ts : List (List Char)) (o₀ : NormOpts) :
    ∃ ps a s, ∀ o : NormOpts, o.task = o₀.task → o.runA x fl fuel md ts = ⟨o.shown ps, a, s⟩ := by
  refine Uniform.congr (o₀ := o₀) ((uniform_loopA x fl fuel ts (o₀.machine md)).andThen uniform_finish) (fun o ho => ?_)
  unfold NormOpts.runA
  have : o.machine md = o₀.machine md := by
    unfold NormOpts.machine
    rw [task_invalid ho]
  rw [this]

/-- How the script ends does not depend on these options. -/
theorem C90_end (x : ArcOpts) (fl : Floats) (fuel : ℕ) (md : Mode) (ts : List (List Char)) {o o' : NormOpts}
    (h : o.task = o'.task) :
    (o.runA x fl fuel md ts).status = (o'.runA x fl fuel md ts).status ∧
      (o.runA x fl fuel md ts).m = (o'.runA x fl fuel md ts).m := by
  obtain ⟨ps, a, s, hu⟩ := C90_pieces x fl fuel md ts o'
  rw [hu o h, hu o' rfl]
  exact ⟨rfl, rfl⟩

/-- `--rm_blanks` removes the empty lines, and only them. -/
theorem C90_blanks (x : ArcOpts) (fl : Floats) (fuel : ℕ) (md : Mode) (ts : List (List Char)) (o : NormOpts) :
    (({ o with rmBlanks := true } : NormOpts).runA x fl fuel md ts).out =
      (({ o with rmBlanks := false } : NormOpts).runA x fl fuel md ts).out.filter (fun l => decide (l ≠ [])) := by
  obtain ⟨ps, a, s, hu⟩ := C90_pieces x fl fuel md ts o
  rw [hu { o with rmBlanks := true } rfl, hu { o with rmBlanks := false } rfl]
  simp [NormOpts.shown]

/-- `--rm_gcodes` removes the gcodes with a listed word from the lines that are printed, whichever part of the script
prints them, and nothing else. -/
theorem C90_gcodes (x : ArcOpts) (fl : Floats) (fuel : ℕ) (md : Mode) (ts : List (List Char)) (o : NormOpts) :
    ∃ ps : List OutLine,
      (({ o with rmGcodes := [] } : NormOpts).runA x fl fuel md ts).out = ({ o with rmGcodes := [] } : NormOpts).shown ps ∧
      (o.runA x fl fuel md ts).out =
        ({ o with rmGcodes := [] } : NormOpts).shown (ps.map (fun p => p.without o.rmGcodes)) := by
  obtain ⟨ps, a, s, hu⟩ := C90_pieces x fl fuel md ts o
  refine ⟨ps, by rw [hu { o with rmGcodes := [] } rfl], ?_⟩
  rw [hu o rfl]
  unfold NormOpts.shown OutLine.without
  simp [Function.comp_def]

/-- `--rm_comments` removes the comments of the lines that are printed, and nothing else. -/
theorem C90_comments (x : ArcOpts) (fl : Floats) (fuel : ℕ) (md : Mode) (ts : List (List Char)) (o : NormOpts) :
    ∃ ps : List OutLine,
      (({ o with rmComments := false } : NormOpts).runA x fl fuel md ts).out =
        ({ o with rmComments := false } : NormOpts).shown ps ∧
      (({ o with rmComments := true } : NormOpts).runA x fl fuel md ts).out =
        ({ o with rmComments := false } : NormOpts).shown (ps.map OutLine.mute) := by
  obtain ⟨ps, a, s, hu⟩ := C90_pieces x fl fuel md ts o
  refine ⟨ps, by rw [hu { o with rmComments := false } rfl], ?_⟩
  rw [hu { o with rmComments := true } rfl]
  unfold NormOpts.shown OutLine.without OutLine.mute
  simp [Function.comp_def]

/-- `--rm_whitespace` removes the blanks of lines without comment and macro. -/
theorem C90_whitespace (p : OutLine) (hc : p.comment = none) (hm : p.mac = none) :
    p.text true = (p.text false).filter (fun x => !isSpace x) := by
  unfold OutLine.text
  simp only [hc, hm, if_true, Bool.false_eq_true, if_false, Option.map_none, Option.toList_none, List.append_nil]
  generalize joinWith [' '] (p.gcodes.map GCode.str ++ p.params.map Word.str) = b
  by_cases hb : b = []
  · subst hb; rfl
  · rw [if_neg hb]
    by_cases h : b.filter (fun x => !isSpace x) = []
    · rw [if_pos h]
      simp [joinWith, h]
    · rw [if_neg h]
      simp [joinWith]

/-- As many lines are printed with the options as without, `--rm_blanks` aside. -/
theorem C90_count (x : ArcOpts) (fl : Floats) (fuel : ℕ) (md : Mode) (ts : List (List Char)) {o o' : NormOpts}
    (h : o.task = o'.task) (hb : o.rmBlanks = false) (hb' : o'.rmBlanks = false) :
    (o.runA x fl fuel md ts).out.length = (o'.runA x fl fuel md ts).out.length := by
  obtain ⟨ps, a, s, hu⟩ := C90_pieces x fl fuel md ts o'
  rw [hu o h, hu o' rfl]
  unfold NormOpts.shown
  simp only [hb, hb', Bool.false_eq_true, if_false, List.length_map]
  split_ifs <;> simp

/-! ## Cases -/

/-- A program with a comment, an empty line and a gcode to be removed. -/
def shownSample : List (List Char) := ["G90 G0 X1 M8 (go)", "", "M8", "X2 ; end"].map String.toList

/-- Options for it: nothing removed, and everything removed. -/
def showAll : NormOpts := {}
def showLeast : NormOpts := { rmGcodes := [⟨'M', .num 8⟩], rmComments := true, rmBlanks := true, rmWhitespace := true }

/-- `--arc_linearize` off. -/
def noArcs : ArcOpts := ⟨false, (.mid, .mid), 0⟩

theorem run_noArcs (o : NormOpts) (md : Mode) (ts : List (List Char)) :
    o.runA noArcs (fun _ _ _ => []) 0 md ts = o.run 0 md ts := C73_off o _ rfl _ 0 md ts

example : (showAll.run 0 Mode.null shownSample).out = ["G90 G00 X1 M08 (go)", "", "M08", "X2 ; end"].map String.toList ∧
    (showLeast.run 0 Mode.null shownSample).out = ["G90G00X1", "X2"].map String.toList := by decide +kernel

example : (showAll.run 0 Mode.null shownSample).status = (showLeast.run 0 Mode.null shownSample).status ∧
    (showAll.run 0 Mode.null shownSample).m = (showLeast.run 0 Mode.null shownSample).m := by
  have := C90_end noArcs (fun _ _ _ => []) 0 Mode.null shownSample (show showAll.task = showLeast.task from rfl)
  rwa [run_noArcs, run_noArcs] at this

example : ∃ ps a s, showAll.run 0 Mode.null shownSample = ⟨showAll.shown ps, a, s⟩ ∧
    showLeast.run 0 Mode.null shownSample = ⟨showLeast.shown ps, a, s⟩ := by
  obtain ⟨ps, a, s, h⟩ := C90_pieces noArcs (fun _ _ _ => []) 0 Mode.null shownSample showAll
  refine ⟨ps, a, s, ?_, ?_⟩
  · rw [← run_noArcs, h _ rfl]
  · rw [← run_noArcs, h showLeast rfl]

example : (({ showAll with rmBlanks := true } : NormOpts).run 0 Mode.null shownSample).out =
    (showAll.run 0 Mode.null shownSample).out.filter (fun l => decide (l ≠ [])) := by
  have := C90_blanks noArcs (fun _ _ _ => []) 0 Mode.null shownSample showAll
  rwa [run_noArcs, run_noArcs] at this

example : ∃ ps : List OutLine, (showAll.run 0 Mode.null shownSample).out = showAll.shown ps ∧
    (({ showAll with rmGcodes := [⟨'M', .num 8⟩] } : NormOpts).run 0 Mode.null shownSample).out =
      showAll.shown (ps.map (fun p => p.without [⟨'M', .num 8⟩])) := by
  have := C90_gcodes noArcs (fun _ _ _ => []) 0 Mode.null shownSample { showAll with rmGcodes := [⟨'M', .num 8⟩] }
  simp only [run_noArcs] at this
  exact this

example : ∃ ps : List OutLine, (showAll.run 0 Mode.null shownSample).out = showAll.shown ps ∧
    (({ showAll with rmComments := true } : NormOpts).run 0 Mode.null shownSample).out = showAll.shown (ps.map OutLine.mute) := by
  have := C90_comments noArcs (fun _ _ _ => []) 0 Mode.null shownSample showAll
  simp only [run_noArcs] at this
  exact this

example : (showAll.run 0 Mode.null shownSample).out.length =
    (({ showAll with rmGcodes := [⟨'M', .num 8⟩] } : NormOpts).run 0 Mode.null shownSample).out.length := by
  have := C90_count noArcs (fun _ _ _ => []) 0 Mode.null shownSample
    (show showAll.task = ({ showAll with rmGcodes := [⟨'M', .num 8⟩] } : NormOpts).task from rfl) rfl rfl
  rwa [run_noArcs, run_noArcs] at this

/-- A line of it, without and with blanks. -/
example : (OutLine.text ⟨[rapidTo [(.X, 1)]], [], none, none⟩ true) = "G00X1".toList ∧
    (OutLine.text ⟨[rapidTo [(.X, 1)]], [], none, none⟩ true) =
      (OutLine.text ⟨[rapidTo [(.X, 1)]], [], none, none⟩ false).filter (fun x => !isSpace x) :=
  ⟨by decide +kernel, C90_whitespace _ rfl rfl⟩

end Pygcode
