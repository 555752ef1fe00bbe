import Verif.Props.Files
import Verif.Props.ModePrint
import Verif.Props.Instances2
import Verif.Lemmas.Near

/-!
# C103: modes from text

A machine starts in the mode that a text describes: `default_mode`, or the option `--machine_mode` of
pygcode-norm.
-/

namespace Pygcode
open Props Machine Spec

/-! ## The lines of the text -/

theorem aux_shorter {t : List Char} (h : t ≠ []) :
    (((t.dropWhile isSpace).dropWhile (· != '\n')).dropWhile isSpace).length < t.length := by
  have h0 : (t.dropWhile isSpace).length ≤ t.length := (List.dropWhile_sublist _).length_le
  cases hs : t.dropWhile isSpace with
  | nil =>
    have : 0 < t.length := List.length_pos_iff.2 h
    simpa using this
  | cons c s =>
    have hc : isSpace c = false := by
      have := head_dropWhile (p := isSpace) (s := t) c (by rw [hs]; simp)
      simpa using this
    have hn : (c != '\n') = true := by
      rw [bne_iff_ne]; rintro rfl; exact absurd hc (by decide)
    have h3 : ((c :: s).dropWhile (· != '\n')).length ≤ s.length := by
      rw [List.dropWhile_cons, if_pos hn]; exact (List.dropWhile_sublist _).length_le
    have h4 : (((c :: s).dropWhile (· != '\n')).dropWhile isSpace).length ≤ ((c :: s).dropWhile (· != '\n')).length :=
      (List.dropWhile_sublist _).length_le
    rw [hs] at h0
    simp only [List.length_cons] at h0
    omega

theorem aux_fuel (t : List Char) : ∀ n, t.length < n → modeLinesAux n t = modeLines t := by
  induction hl : t.length using Nat.strong_induction_on generalizing t with
  | _ k ih =>
    intro n hn
    unfold modeLines
    cases n with
    | zero => omega
    | succ n =>
      unfold modeLinesAux
      by_cases h : t = []
      · rw [if_pos h, if_pos h]
      · rw [if_neg h, if_neg h]
        have hs := aux_shorter h
        rw [ih _ (by omega) _ rfl n (by omega), ih _ (by omega) _ rfl t.length (by omega)]

/-- The bound on the number of matches does not matter. -/
theorem modeLines_eq {t : List Char} (h : t ≠ []) : modeLines t = (t.dropWhile isSpace).takeWhile (· != '\n') ::
    modeLines (((t.dropWhile isSpace).dropWhile (· != '\n')).dropWhile isSpace) := by
  rw [← aux_fuel t (t.length + 1) (by omega), modeLinesAux, if_neg h, aux_fuel _ _ (aux_shorter h)]

/-- The gcodes of a line before others. -/
def addLine (r : Except Err Line) (s : Except Err (List GCode)) : Except Err (List GCode) :=
  match r with
  | .error e => .error e
  | .ok ln =>
    match s with
    | .error e => .error e
    | .ok gs => .ok (ln.block.gcodes ++ gs)

theorem gcodesOfLines_cons (l : List Char) (ls : List (List Char)) :
    gcodesOfLines (l :: ls) = addLine (Line.ofText l) (gcodesOfLines ls) := rfl

theorem lineSplit_space {c : Char} (hc : isSpace c = true) (hn : c ≠ '\n') (t : List Char) :
    lineSplit (c :: t) = if t.all isSpace then some ([], none) else (lineSplit t).map (fun p => (c :: p.1, p.2)) := by
  have hp : c ≠ '%' := by rintro rfl; exact absurd hc (by decide)
  conv_lhs => unfold lineSplit
  rw [if_neg (fun h => hp h.1)]
  have : (c :: t).all isSpace = t.all isSpace := by rw [List.all_cons, hc, Bool.true_and]
  rw [this, if_neg hn]

theorem lineSplit_blank {t : List Char} (h : t.all isSpace = true) : lineSplit t = some ([], none) := by
  cases t with
  | nil => rfl
  | cons c t =>
    unfold lineSplit
    have hp : c ≠ '%' := by
      rintro rfl
      rw [List.all_cons] at h
      exact absurd h (by simp [show isSpace '%' = false from by decide])
    rw [if_neg (fun h => hp h.1), if_pos h]

theorem strip_space {c : Char} (hc : isSpace c = true) (t : List Char) : cleanText (c :: t) = cleanText t := by
  unfold cleanText strip
  rw [List.dropWhile_cons, if_pos hc]

theorem semiAt_space {c : Char} (hc : isSpace c = true) (t : List Char) : semiAt (c :: t) = semiAt t := by
  unfold semiAt
  rw [List.dropWhile_cons, if_pos hc]

theorem splitLine_space {c : Char} (hc : isSpace c = true) (hn : c ≠ '\n') {b : List Char} (hb : '\n' ∉ b) :
    cleanText (splitLine (c :: b)).1 = cleanText (splitLine b).1 := by
  have hcb : '\n' ∉ c :: b := by
    intro h; rcases List.mem_cons.1 h with h | h
    · exact hn h.symm
    · exact hb h
  have hp : c ≠ '(' := by rintro rfl; exact absurd hc (by decide)
  unfold splitLine
  rw [rstripNewlines_id hb, rstripNewlines_id hcb]
  simp only
  have hsf : semiFind (c :: b) = match semiAt b with
      | some t => some ([], t)
      | none => (semiFind b).map (fun p => (c :: p.1, p.2)) := by
    conv_lhs => unfold semiFind
    rw [semiAt_space hc]
    cases semiAt b <;> rfl
  have hbr : bracketScan none (c :: b) = (c :: (bracketScan none b).1, (bracketScan none b).2) := by
    conv_lhs => unfold bracketScan
    rw [if_neg hp]
  rw [hsf]
  cases hs : semiAt b with
  | some t =>
    have : semiFind b = some ([], t) := by unfold semiFind; rw [hs]
    rw [this]
  | none =>
    simp only
    cases hf : semiFind b with
    | some p => obtain ⟨x, y⟩ := p; exact strip_space hc _
    | none =>
      simp only [Option.map_none, hbr]
      by_cases h : (bracketScan none b).2 = []
      · rw [if_pos h, if_pos h]; exact strip_space hc _
      · rw [if_neg h, if_neg h]; exact strip_space hc _

theorem blockText_congr {a b : List Char} (h : cleanText a = cleanText b) : Block.ofText a = Block.ofText b := by
  unfold Block.ofText
  rw [h]

theorem addLine_space {c : Char} (hc : isSpace c = true) (hn : c ≠ '\n') {t : List Char} (ht : '\n' ∉ t)
    (s : Except Err (List GCode)) : addLine (Line.ofText (c :: t)) s = addLine (Line.ofText t) s := by
  unfold Line.ofText Line.parts
  rw [lineSplit_space hc hn]
  by_cases h : t.all isSpace = true
  · rw [if_pos h, lineSplit_blank h]
  · rw [if_neg h]
    cases hl : lineSplit t with
    | none => rfl
    | some p =>
      obtain ⟨b, m⟩ := p
      have hb : '\n' ∉ b := fun h => ht ((lineSplit_sub hl).1 h)
      simp only [Option.map_some]
      rw [blockText_congr (splitLine_space hc hn hb)]
      cases Block.ofText (splitLine b).1 <;> rfl

theorem addLine_indent {t : List Char} (ht : '\n' ∉ t) (s : Except Err (List GCode)) :
    addLine (Line.ofText (t.dropWhile isSpace)) s = addLine (Line.ofText t) s := by
  induction t with
  | nil => rfl
  | cons c t ih =>
    rw [List.dropWhile_cons]
    by_cases hc : isSpace c = true
    · rw [if_pos hc, ih (fun h => ht (List.mem_cons_of_mem _ h)),
        addLine_space hc (fun h => ht (by simp [h])) (fun h => ht (List.mem_cons_of_mem _ h))]
    · rw [if_neg hc]

theorem addLine_nil (s : Except Err (List GCode)) : addLine (Line.ofText []) s = s := by
  have : Line.ofText [] = .ok ⟨⟨[], [], []⟩, none, none⟩ := by decide +kernel
  rw [this]
  cases s <;> rfl

theorem found_space {c : Char} (hc : isSpace c = true) (t : List Char) :
    gcodesOfLines (modeLines (c :: t)) = gcodesOfLines (modeLines t) := by
  cases t with
  | nil =>
    have h : ([c] : List Char).dropWhile isSpace = [] := by rw [List.dropWhile_cons, if_pos hc]; rfl
    rw [modeLines_eq (t := [c]) (by simp), h]
    exact addLine_nil (gcodesOfLines (modeLines []))
  | cons d t =>
    rw [modeLines_eq (t := c :: d :: t) (by simp), modeLines_eq (t := d :: t) (by simp), List.dropWhile_cons, if_pos hc]

theorem found_drop (t : List Char) : gcodesOfLines (modeLines (t.dropWhile isSpace)) = gcodesOfLines (modeLines t) := by
  induction t with
  | nil => rfl
  | cons c t ih =>
    rw [List.dropWhile_cons]
    by_cases hc : isSpace c = true
    · rw [if_pos hc, ih, found_space hc]
    · rw [if_neg hc]

theorem found_start {t r : List Char} (h : t.dropWhile isSpace ≠ []) (hl : ∀ x ∈ t, x ≠ '\n')
    (hr : r = [] ∨ ∃ r', r = '\n' :: r') :
    gcodesOfLines (modeLines (t ++ r)) = addLine (Line.ofText t) (gcodesOfLines (modeLines r)) := by
  have ht : '\n' ∉ t := fun h => hl _ h rfl
  have hne : t ++ r ≠ [] := by
    intro h0; rw [(List.append_eq_nil_iff.1 h0).1] at h; exact h rfl
  have h1 : (t ++ r).dropWhile isSpace = t.dropWhile isSpace ++ r := by
    rw [List.dropWhile_append, if_neg (by simpa using h)]
  have h2 : ∀ x ∈ t.dropWhile isSpace, (x != '\n') = true := by
    intro x hx; rw [bne_iff_ne]; exact hl x ((List.dropWhile_sublist _).subset hx)
  have h3 : (t.dropWhile isSpace ++ r).takeWhile (· != '\n') = t.dropWhile isSpace := by
    rw [List.takeWhile_append_of_pos h2]
    rcases hr with rfl | ⟨r', rfl⟩ <;> simp
  have h4 : (t.dropWhile isSpace ++ r).dropWhile (· != '\n') = r := by
    rw [List.dropWhile_append_of_pos h2]
    rcases hr with rfl | ⟨r', rfl⟩ <;> simp
  rw [modeLines_eq hne, h1, h3, h4, gcodesOfLines_cons, found_drop, addLine_indent ht]

theorem found_line {t r : List Char} (ht : '\n' ∉ t) (hr : r = [] ∨ ∃ r', r = '\n' :: r') :
    gcodesOfLines (modeLines (t ++ r)) = addLine (Line.ofText t) (gcodesOfLines (modeLines r)) := by
  by_cases h : t.dropWhile isSpace = []
  · rw [← addLine_indent ht, h, addLine_nil]
    have : ∀ t : List Char, t.dropWhile isSpace = [] → gcodesOfLines (modeLines (t ++ r)) = gcodesOfLines (modeLines r) := by
      intro t
      induction t with
      | nil => exact fun _ => rfl
      | cons c t ih =>
        intro h
        rw [List.dropWhile_cons] at h
        by_cases hc : isSpace c = true
        · rw [if_pos hc] at h
          rw [List.cons_append, found_space hc, ih h]
        · rw [if_neg hc] at h; cases h
    exact this t h
  · exact found_start h (fun x hx hn => ht (hn ▸ hx)) hr

/-- The regular expression finds the lines of the text, whatever their indentation. -/
theorem found_lines (ls : List (List Char)) (h : ∀ l ∈ ls, '\n' ∉ l) :
    gcodesOfLines (modeLines (joinWith ['\n'] ls)) = gcodesOfLines ls := by
  have hnil : gcodesOfLines (modeLines []) = .ok [] := by
    show addLine (Line.ofText []) (.ok []) = _
    exact addLine_nil _
  induction ls with
  | nil => exact hnil
  | cons l ls ih =>
    have ih := ih (fun x hx => h x (List.mem_cons_of_mem _ hx))
    cases ls with
    | nil =>
      have := found_line (t := l) (r := []) (h l (by simp)) (.inl rfl)
      rw [List.append_nil, hnil] at this
      exact this
    | cons l' ls =>
      have : joinWith ['\n'] (l :: l' :: ls) = l ++ '\n' :: joinWith ['\n'] (l' :: ls) := by simp [joinWith]
      rw [this, found_line (h l (by simp)) (.inr ⟨_, rfl⟩), found_space (by decide), ih]
      rfl

/-! ## The mode -/

/-- Table: all classes of a modal group have the same place in the order of execution. -/
theorem group_order (c d : Cls) (k : ℕ) (hc : c.group = some k) (hd : d.group = some k) : c.order = d.order := by
  have h1 := Cls.forall_of_all (p := fun c => Cls.all.all (fun d =>
    c.group == none || !(c.group == d.group) || c.order == d.order)) (by decide +kernel) c
  have h2 := Cls.forall_of_all (p := fun d => c.group == none || !(c.group == d.group) || c.order == d.order) h1 d
  rw [hc, hd] at h2
  simpa using h2

theorem sort_group (gs : List GCode) (k : ℕ) :
    (execSort gs).filter (fun g => decide (g.cls.group = some k)) = gs.filter (fun g => decide (g.cls.group = some k)) := by
  have hs := (execSort_stable gs).2.2
  by_cases h : ∃ c : Cls, c.group = some k
  · obtain ⟨c, hc⟩ := h
    have key : ∀ l : List GCode, l.filter (fun g => decide (g.cls.group = some k)) =
        (l.filter (fun g => g.cls.order == c.order)).filter (fun g => decide (g.cls.group = some k)) := by
      intro l
      rw [List.filter_filter]
      refine List.filter_congr fun g _ => ?_
      by_cases hg : g.cls.group = some k
      · simp [hg, group_order g.cls c k hg hc]
      · simp [hg]
    rw [key, key gs, hs]
  · have key : ∀ l : List GCode, l.filter (fun g => decide (g.cls.group = some k)) = [] := by
      intro l
      rw [List.filter_eq_nil_iff]
      intro g _ hg
      exact h ⟨g.cls, of_decide_eq_true hg⟩
    rw [key, key]

/-- The mode from the gcodes of the text. -/
theorem ofText_mode {t : List Char} {gs : List GCode} (h : gcodesOfLines (modeLines t) = .ok gs) (hg : ∀ g ∈ gs, GOK g) :
    Mode.ofText t = .ok ((execSort gs).foldl setIn Mode.null) := by
  unfold Mode.ofText
  rw [h]
  simp only
  rw [Pygcode.setMode_eq _ gs hg]

theorem gcodesOfLines_ok {P : GCode → Prop} (hP : ∀ t l, Line.ofText t = .ok l → ∀ g ∈ l.block.gcodes, P g)
    (ls : List (List Char)) : ∀ {gs : List GCode}, gcodesOfLines ls = .ok gs → ∀ g ∈ gs, P g := by
  induction ls with
  | nil => intro gs h; cases h; exact fun _ h => nomatch h
  | cons l ls ih =>
    intro gs h
    unfold gcodesOfLines at h
    split at h
    · cases h
    · rename_i ln hln
      split at h
      · cases h
      · rename_i gs' hgs
        cases h
        intro g hg
        rcases List.mem_append.1 hg with h | h
        · exact hP l ln hln g h
        · exact ih hgs g h

theorem gcodesOfLines_forall₂ {ls : List (List Char)} {lns : List Line}
    (h : List.Forall₂ (fun l ln => Line.ofText l = .ok ln) ls lns) :
    gcodesOfLines ls = .ok (lns.flatMap (fun ln => ln.block.gcodes)) := by
  induction h with
  | nil => rfl
  | cons h _ ih =>
    unfold gcodesOfLines
    rw [h, ih]
    rfl

/-- **C103**: for a text all of whose lines can be read, the mode has in each group the modal copy (C19) of the
last gcode of that group in the text, whatever the line it is on, and nothing in groups of which the text has no
gcode.  (Although the gcodes are sorted by the order of execution first.) -/
theorem C103_mode (ls : List (List Char)) (h : ∀ l ∈ ls, '\n' ∉ l) (lns : List Line)
    (hp : List.Forall₂ (fun l ln => Line.ofText l = .ok ln) ls lns) :
    ∃ md, Mode.ofText (joinWith ['\n'] ls) = .ok md ∧ ∀ k,
      ((∀ ln ∈ lns, ∀ g ∈ ln.block.gcodes, g.cls.group ≠ some k) → md k = none) ∧
      ∀ pre g post, lns.flatMap (fun ln => ln.block.gcodes) = pre ++ g :: post → g.cls.group = some k →
        (∀ x ∈ post, x.cls.group ≠ some k) → ∃ c, g.modalCopy = .ok c ∧ md k = some c := by
  have hg := gcodesOfLines_forall₂ hp
  have hgok := gcodesOfLines_ok (P := GOK) (fun t l h => line_gok h) ls hg
  refine ⟨_, ofText_mode ((found_lines ls h).trans hg) hgok, fun k => ⟨fun hk => ?_, fun pre g post he hgr hpost => ?_⟩⟩
  · rw [foldl_setIn, sort_group]
    have : (lns.flatMap (fun ln => ln.block.gcodes)).filter (fun g => decide (g.cls.group = some k)) = [] := by
      rw [List.filter_eq_nil_iff]
      intro g hg
      obtain ⟨ln, h1, h2⟩ := List.mem_flatMap.1 hg
      simpa using hk ln h1 g h2
    rw [this]
    rfl
  · refine ⟨copyOf g, modalCopy_eq g (hgok g (by rw [he]; simp)), ?_⟩
    rw [foldl_setIn, sort_group, he, List.filter_append, List.filter_cons]
    have hp : post.filter (fun g => decide (g.cls.group = some k)) = [] := by
      rw [List.filter_eq_nil_iff]
      intro x hx
      simpa using hpost x hx
    simp [hgr, hp]

/-- **C103**: otherwise the exception of the first line that cannot be read is raised. -/
theorem C103_raises (a : List (List Char)) (l : List Char) (b : List (List Char)) (h : ∀ x ∈ a ++ l :: b, '\n' ∉ x)
    (ha : ∀ x ∈ a, ∃ ln, Line.ofText x = .ok ln) (e : Err) (hl : Line.ofText l = .error e) :
    Mode.ofText (joinWith ['\n'] (a ++ l :: b)) = .error e := by
  have key : gcodesOfLines (a ++ l :: b) = .error e := by
    clear h
    induction a with
    | nil => rw [List.nil_append]; unfold gcodesOfLines; rw [hl]
    | cons x a ih =>
      obtain ⟨ln, hx⟩ := ha x (by simp)
      rw [List.cons_append]
      unfold gcodesOfLines
      rw [hx, ih (fun y hy => ha y (List.mem_cons_of_mem _ hy))]
  unfold Mode.ofText
  rw [found_lines _ h, key]

/-- **C103**: a mode made from text meets what the theorems about the scripts ask of the start mode; the machine
of the script is consistent if the mode has no coordinate system or the first. -/
theorem C103_start (t : List Char) (md : Mode) (h : Mode.ofText t = .ok md) :
    ModeOK md ∧ ModeAll Named md ∧ ModeAll (fun g => g.ws = false) md ∧
    ∀ o : NormOpts, (o.machine md).WF ∧ (Sound (o.machine md) ↔ ∀ g, md 12 = some g → g.cls.coordSys = some 1) := by
  cases hg : gcodesOfLines (modeLines t) with
  | error e => unfold Mode.ofText at h; rw [hg] at h; cases h
  | ok gs =>
    have hgok := gcodesOfLines_ok (P := GOK) (fun t l h => line_gok h) _ hg
    have hname := gcodesOfLines_ok (P := Named) (fun t l h => kept_named.parsed _ _ _ (line_words h)) _ hg
    rw [ofText_mode hg hgok] at h
    cases h
    have hm : ∀ g, g ∈ execSort gs → g ∈ gs := fun g => mem_execSort
    have h1 := foldl_ok _ (fun g hg => hgok g (hm g hg)) _ null_ok.1
    have h2 := foldl_all Named (fun _ h => h) _ (fun g hg => hname g (hm g hg)) _ null_ok.2
    have h3 : ModeAll (fun g => g.ws = false) ((execSort gs).foldl setIn Mode.null) := by
      intro k g hk
      rw [foldl_setIn] at hk
      split at hk
      · cases hk
      · cases hk; rfl
    refine ⟨h1, h2, h3, fun o => ?_⟩
    have hwf : (o.machine ((execSort gs).foldl setIn Mode.null)).WF := by
      have := newWith_wf xyz ((execSort gs).foldl setIn Mode.null)
      exact ⟨this.1, this.2, this.3, this.4, this.5, this.6, this.7⟩
    refine ⟨hwf, fun hs g hg => ?_, fun hc => ⟨hwf, h1, h2, h3, fun g hg => ?_, ⟨_, rfl⟩⟩⟩
    · have := hs.sync g hg
      have h1 : (o.machine ((execSort gs).foldl setIn Mode.null)).state.cur = 1 := rfl
      rw [h1] at this
      cases hc : g.cls.coordSys with
      | none => rw [hc] at this; cases this
      | some n => rw [hc] at this; exact congrArg some this.symm
    · show 1 = _
      rw [hc g hg]
      rfl

theorem ofText_default (t : List Char) (h : gcodesOfLines (modeLines t) = Mode.defaultGcodes) :
    Mode.ofText t = .ok Mode.default := by
  obtain ⟨gs, hd, hg⟩ := default_ok
  rw [ofText_mode (h.trans hd) (fun g hm => (hg g hm).1)]
  unfold Mode.default
  rw [hd]
  simp only
  rw [Pygcode.setMode_eq _ gs (fun g hm => (hg g hm).1)]

theorem defaultLines_chars : Mode.defaultLines.map String.toList =
   [chars! "G0      (movement: rapid)", chars! "G17     (plane_selection: X/Y plane)",
    chars! "G90     (distance: absolute position. ie: not \"turtle\" mode)",
    chars! "G91.1   (arc_ijk_distance: IJK sets arc center vertex relative to current position)",
    chars! "G94     (feed_rate_mode: feed-rate defined in units/min)", chars! "G21     (units: mm)",
    chars! "G40     (cutter_diameter_comp: no compensation)", chars! "G49     (tool_length_offset: no offset)",
    chars! "G54     (coordinate_system: 1)", chars! "G61     (control_mode: exact path mode)",
    chars! "G97     (spindle_speed_mode: RPM Mode)", chars! "M5      (spindle: off)", chars! "M9      (coolant: off)",
    chars! "F0      (feed_rate: 0)", chars! "S0      (spindle_speed: 0)", chars! "T0      (tool: 0)", chars! ""] := by
  unfold Mode.defaultLines
  simp only [List.map_cons, List.map_nil]
  repeat' refine congrArg₂ List.cons (String.toList_ofList (l := _)) ?_
  rfl

theorem default_lines : modeLines defaultModeText = Mode.defaultLines.map String.toList := by
  rw [defaultLines_chars]
  decide +kernel

theorem foldlM_lines (ls : List String) : ∀ gs, ls.foldlM (fun gs (l : String) =>
    match Line.ofText l.toList with
    | .error e => .error e
    | .ok ln => .ok (gs ++ ln.block.gcodes)) gs = (gcodesOfLines (ls.map String.toList)).map (gs ++ ·) := by
  induction ls with
  | nil => intro gs; show Except.ok gs = _; simp [gcodesOfLines, Except.map]
  | cons l ls ih =>
    intro gs
    rw [List.foldlM_cons, List.map_cons]
    unfold gcodesOfLines
    cases h : Line.ofText l.toList with
    | error e => rfl
    | ok ln =>
      show ls.foldlM _ (gs ++ ln.block.gcodes) = _
      rw [ih]
      cases gcodesOfLines (ls.map String.toList) with
      | error e => rfl
      | ok gs' => simp [Except.map]

theorem defaultGcodes_lines : Mode.defaultGcodes = gcodesOfLines (Mode.defaultLines.map String.toList) := by
  refine (foldlM_lines Mode.defaultLines []).trans ?_
  cases gcodesOfLines (Mode.defaultLines.map String.toList) <;> simp [Except.map]

/-- **C103**: the default mode of the machine is the one that its text describes. -/
theorem C103_default : Mode.ofText defaultModeText = .ok Mode.default := by
  refine ofText_default _ ?_
  rw [default_lines, defaultGcodes_lines]

/-- **C103**: the printed mode (C40), given as `--machine_mode`, is that mode again. -/
theorem C103_printed (md : Mode) (h : PrintableMode md) :
    ∃ md', Mode.ofText md.str = .ok md' ∧
      ∀ k, (md k = none ↔ md' k = none) ∧ ∀ g, md k = some g → ∃ g', md' k = some g' ∧ SameGCode g g' := by
  obtain ⟨l, hl, -, md', hs, hk⟩ := C40_reproduced md h
  have hn : '\n' ∉ md.str := by
    intro hm
    rcases Pygcode.mem_joinWith hm with h1 | ⟨x, hx, h1⟩
    · simp at h1
    · obtain ⟨g, hg, rfl⟩ := List.mem_map.1 hx
      obtain ⟨k, -, hgk⟩ := (mem_gcodes md g).1 hg
      have hw : ∀ w ∈ g.word :: g.params, '\n' ∉ w.str := fun w hw hc =>
        (plain_str_safe (h.plain k g hgk w hw) _ hc).2.1 rfl
      unfold GCode.str at h1
      rcases List.mem_append.1 h1 with h1 | h1
      · split at h1
        · exact absurd (List.eq_of_mem_replicate h1) (by decide)
        · exact hw _ (by simp) h1
      · obtain ⟨w, hwm, h1⟩ := List.mem_flatMap.1 h1
        rcases List.mem_cons.1 h1 with h1 | h1
        · exact absurd h1 (by decide)
        · exact hw w (List.mem_cons_of_mem _ ((sortedParams_perm g).mem_iff.1 hwm)) h1
  have hf := found_lines [md.str] (by simpa using hn)
  have hg : gcodesOfLines [md.str] = .ok l.block.gcodes := by
    have := gcodesOfLines_forall₂ (ls := [md.str]) (lns := [l]) (.cons hl .nil)
    simpa using this
  refine ⟨md', ?_, hk⟩
  have hf : gcodesOfLines (modeLines md.str) = .ok l.block.gcodes := hf.trans hg
  unfold Mode.ofText
  rw [hf]
  simp only
  rw [hs]

/-- **C103**: the default of `--machine_mode` sets eleven groups; the others, among them the arc distance mode,
are empty. -/
theorem C103_norm : ∃ md, Mode.ofText normDefaultMode = .ok md ∧
    (modalGroups.filter (fun x => (md x.2).isNone)).map Prod.fst = ["arc_ijk_distance", "cutter_diameter_comp",
      "tool_length_offset", "canned_cycles_return", "control_mode", "spindle_speed_mode", "lathe_diameter", "stopping",
      "override_switches", "user_defined"] ∧
    md.str = "G00 G17 G90 G94 G21 G54 M05 M09 F0 S0 T0".toList ∧ Sound (({} : NormOpts).machine md) := by
  have key : (match Mode.ofText normDefaultMode with
      | .error _ => false
      | .ok md => decide ((modalGroups.filter (fun x => (md x.2).isNone)).map Prod.fst = ["arc_ijk_distance",
          "cutter_diameter_comp", "tool_length_offset", "canned_cycles_return", "control_mode", "spindle_speed_mode",
          "lathe_diameter", "stopping", "override_switches", "user_defined"]) &&
        decide (md.str = "G00 G17 G90 G94 G21 G54 M05 M09 F0 S0 T0".toList) &&
        ((md 12).bind (fun g => g.cls.coordSys) == some 1)) = true := by decide +kernel
  cases h : Mode.ofText normDefaultMode with
  | error e => rw [h] at key; cases key
  | ok md =>
    rw [h] at key
    simp only [Bool.and_eq_true, decide_eq_true_eq, beq_iff_eq] at key
    refine ⟨md, rfl, key.1.1, key.1.2, (((C103_start _ md h).2.2.2 {}).2).2 fun g hg => ?_⟩
    have := key.2
    rw [hg] at this
    exact this

/-- **C103**, disagreement: started with another coordinate system than the first, the machine's mode has that
system and its state the first. -/
theorem C103_refuted : ∃ md, Mode.ofText "G55".toList = .ok md ∧ (md 12).map (fun g => g.cls.coordSys) = some (some 2) ∧
    ∀ o : NormOpts, (o.machine md).state.cur = 1 := by
  have key : (match Mode.ofText "G55".toList with
      | .error _ => false
      | .ok md => (md 12).map (fun g => g.cls.coordSys) == some (some 2)) = true := by decide +kernel
  cases h : Mode.ofText "G55".toList with
  | error e => rw [h] at key; cases key
  | ok md => rw [h] at key; exact ⟨md, rfl, by simpa using key, fun _ => rfl⟩

/-- Non-trivial cases: several lines, indentation, comments, and two gcodes of a group. -/
example := C103_mode (["  G1 G90 (lines)", "", "\tF100 G0 ; and", " "].map String.toList) (by decide)

example : (Mode.ofText "  G91 G1 (lines)\n\n\tF100 ; and\n G90 X1 G0\n".toList).toOption.map Mode.str =
    some "G00 G90 F100".toList := by decide +kernel

example := C103_raises ["G90".toList] "G90 G91".toList ["G17".toList] (by decide)

example : (match Line.ofText "G90 G91".toList with | .error .assertion => true | _ => false) = true := by decide +kernel

example := C103_printed _ sample_printable

example := C103_start _ _ C103_default

end Pygcode
