import Verif.Props.MachineMove

/-!
# Mode slots (C35, C36)
-/

namespace Pygcode
open Props Machine

/-! ## C35 -/

/-- Each slot is empty or holds a gcode of that group, well-formed, carrying only parameters its
class declares modal. -/
def ModeOK (md : Mode) : Prop :=
  ∀ k g, md k = some g → g.cls.group = some k ∧ GOK g ∧ ∀ w ∈ g.params, w.letter ∈ g.cls.modalParams

/-- All gcodes of the mode satisfy `P`. -/
def ModeAll (P : GCode → Prop) (md : Mode) : Prop := ∀ k g, md k = some g → P g

theorem copyOf_gok (g : GCode) (hg : GOK g) : GOK (copyOf g) := by
  refine ⟨?_, ?_⟩
  · exact hg.1.sublist (List.Sublist.map _ List.filter_sublist)
  · exact fun w hw => hg.2 w (List.mem_of_mem_filter hw)

theorem setIn_ok (md : Mode) (h : ModeOK md) (g : GCode) (hg : GOK g) : ModeOK (setIn md g) := by
  intro k x hx
  unfold setIn at hx
  cases hgr : g.cls.group with
  | none => rw [hgr] at hx; exact h k x hx
  | some j =>
    rw [hgr] at hx; simp only at hx
    by_cases hk : k = j
    · subst hk
      rw [Function.update_self] at hx
      cases hx
      exact ⟨hgr, copyOf_gok g hg, fun w hw => of_decide_eq_true (List.mem_filter.1 hw).2⟩
    · rw [Function.update_of_ne hk] at hx
      exact h k x hx

theorem setIn_all (P : GCode → Prop) (hP : ∀ g, P g → P (copyOf g)) (md : Mode) (h : ModeAll P md)
    (g : GCode) (hg : P g) : ModeAll P (setIn md g) := by
  intro k x hx
  unfold setIn at hx
  cases hgr : g.cls.group with
  | none => rw [hgr] at hx; exact h k x hx
  | some j =>
    rw [hgr] at hx; simp only at hx
    by_cases hk : k = j
    · subst hk
      rw [Function.update_self] at hx
      cases hx
      exact hP g hg
    · rw [Function.update_of_ne hk] at hx
      exact h k x hx

theorem foldl_ok (gs : List GCode) (hg : ∀ g ∈ gs, GOK g) (md : Mode) (h : ModeOK md) :
    ModeOK (gs.foldl setIn md) := by
  induction gs generalizing md with
  | nil => exact h
  | cons g gs ih =>
    exact ih (fun x hx => hg x (List.mem_cons_of_mem _ hx)) _ (setIn_ok md h g (hg g List.mem_cons_self))

theorem foldl_all (P : GCode → Prop) (hP : ∀ g, P g → P (copyOf g)) (gs : List GCode)
    (hg : ∀ g ∈ gs, P g) (md : Mode) (h : ModeAll P md) : ModeAll P (gs.foldl setIn md) := by
  induction gs generalizing md with
  | nil => exact h
  | cons g gs ih =>
    exact ih (fun x hx => hg x (List.mem_cons_of_mem _ hx)) _
      (setIn_all P hP md h g (hg g List.mem_cons_self))

/-- A property of modes that processing preserves. -/
structure Kept (P : GCode → Prop) (I : Mode → Prop) : Prop where
  set : ∀ md g, I md → GOK g → P g → I (setIn md g)
  clear : ∀ md, I md → I (Function.update md 1 none)
  parsed : ∀ ws gs un, words2gcodes ws = .ok (gs, un) → ∀ g ∈ gs, P g

namespace Kept
variable {P : GCode → Prop} {I : Mode → Prop}

theorem foldl (h : Kept P I) (gs : List GCode) (h1 : ∀ g ∈ gs, GOK g) (h2 : ∀ g ∈ gs, P g) (md : Mode)
    (hi : I md) : I (gs.foldl setIn md) := by
  induction gs generalizing md with
  | nil => exact hi
  | cons g gs ih =>
    exact ih (fun x hx => h1 x (List.mem_cons_of_mem _ hx)) (fun x hx => h2 x (List.mem_cons_of_mem _ hx))
      _ (h.set _ g hi (h1 g List.mem_cons_self) (h2 g List.mem_cons_self))

theorem process (h : Kept P I) (m : Machine) (hm : m.WF) (g : GCode) (hg : GOK g) (hp : P g)
    (hi : I m.mode) : I (m.process g).1.mode := by
  rw [process_eq m g hg]
  rcases (effect_mode (m.withMode (setIn m.mode g)) (withMode_wf m hm _) g).1 with he | he <;> rw [he]
  · exact h.set _ g hi hg hp
  · exact h.clear _ (h.set _ g hi hg hp)

theorem all (h : Kept P I) (gs : List GCode) (hg : ∀ g ∈ gs, GOK g) (hp : ∀ g ∈ gs, P g) (m : Machine)
    (hm : m.WF) (hi : I m.mode) : I (m.processAll gs).1.mode := by
  induction gs generalizing m with
  | nil => exact hi
  | cons g gs ih =>
    have h1 := h.process m hm g (hg g List.mem_cons_self) (hp g List.mem_cons_self) hi
    have h2 := (path_process m hm g (hg g List.mem_cons_self)).wf hm
    unfold processAll andThen
    rcases hpr : m.process g with ⟨m', _ | e⟩
    · rw [hpr] at h1 h2
      exact ih (fun x hx => hg x (List.mem_cons_of_mem _ hx))
        (fun x hx => hp x (List.mem_cons_of_mem _ hx)) m' h2 h1
    · rw [hpr] at h1; exact h1

theorem modal (h : Kept P I) {m : Machine} {mp : List Word} {g : GCode}
    (hm : m.modalGcode mp = .ok (some g)) : P g := by
  unfold modalGcode at hm
  by_cases hmp : mp = []
  · rw [if_pos hmp] at hm; cases hm
  rw [if_neg hmp] at hm
  cases hmo : m.mode.motion with
  | none =>
    rw [hmo] at hm; simp only at hm
    split_ifs at hm
    cases hm
  | some x =>
    rw [hmo] at hm; simp only at hm
    cases hw : words2gcodes (x.word :: override x.params mp) with
    | error e => rw [hw] at hm; cases hm
    | ok r =>
      obtain ⟨gs, un⟩ := r
      rw [hw] at hm; simp only at hm
      by_cases hc : un ≠ [] ∧ m.ignoreInvalid = false
      · rw [if_pos hc] at hm; cases hm
      · rw [if_neg hc] at hm
        rcases gs with _ | ⟨a, _ | ⟨b, r⟩⟩
        · cases hm
        · simp only [Except.ok.injEq, Option.some.injEq] at hm
          subst hm
          exact h.parsed _ _ _ hw _ (by simp)
        · cases hm

theorem block (h : Kept P I) (m : Machine) (hm : m.WF) (gs : List GCode) (mp : List Word)
    (hg : ∀ g ∈ gs, GOK g) (hp : ∀ g ∈ gs, P g) (hi : I m.mode) : I (m.processGcodes gs mp).1.mode := by
  unfold processGcodes
  cases hmg : m.modalGcode mp with
  | error e => exact hi
  | ok og =>
    refine h.all _ (sort_gok hg (fun g hog => modalGcode_gok (by rw [hmg, hog]))) ?_ m hm hi
    intro g hgm
    have := (execSort_stable (gs ++ og.toList)).1.mem_iff.1 hgm
    rcases List.mem_append.1 this with h' | h'
    · exact hp g h'
    · have : og = some g := by simpa using h'
      exact h.modal (by rw [hmg, this])

end Kept

theorem line_words {t : List Char} {l : Line} (h : Line.ofText t = .ok l) :
    words2gcodes l.block.words = .ok (l.block.gcodes, l.block.modalParams) := by
  unfold Line.ofText at h
  cases h1 : Line.parts t with
  | error e => rw [h1] at h; cases h
  | ok r =>
    obtain ⟨bs, c, mac⟩ := r
    rw [h1] at h; simp only at h
    cases h2 : Block.ofText bs with
    | error e => rw [h2] at h; cases h
    | ok b =>
      rw [h2] at h
      simp only [Except.ok.injEq] at h
      subst h
      simp only
      unfold Block.ofText at h2
      cases h3 : text2words (cleanText bs) with
      | error e => rw [h3] at h2; cases h2
      | ok ws =>
        rw [h3] at h2; simp only at h2
        cases h4 : words2gcodes ws with
        | error e => rw [h4] at h2; cases h2
        | ok r =>
          obtain ⟨gs, mp⟩ := r
          rw [h4] at h2; simp only [if_true] at h2
          cases h5 : Block.assertLoop [] [] gs with
          | error e => rw [h5] at h2; cases h2
          | ok u =>
            rw [h5] at h2
            simp only [Except.ok.injEq] at h2
            subst h2
            exact h4

/-- The gcodes passed to a call satisfy `P`. -/
def Call.All (P : GCode → Prop) : Call → Prop
  | .gcode g => P g
  | .gcodes gs _ => ∀ g ∈ gs, P g
  | .setMode gs => ∀ g ∈ gs, P g
  | _ => True

theorem Kept.call {P : GCode → Prop} {I : Mode → Prop} (h : Kept P I) (m : Machine) (hm : m.WF) (c : Call)
    (hc : c.OK m.axes m.absPos.unit) (hp : c.All P) (hi : I m.mode) : I (c.run m).1.mode := by
  cases c with
  | gcode g => exact h.process m hm g hc hp hi
  | gcodes gs mp => exact h.block m hm gs mp hc hp hi
  | str t =>
    simp only [Call.run, processStr, processBlock]
    cases hl : Line.ofText t with
    | error e => exact hi
    | ok l => exact h.block m hm _ _ (line_gok hl) (h.parsed _ _ _ (line_words hl)) hi
  | setMode gs =>
    simp only [Call.run]
    rw [Machine.setMode_eq m gs hc]
    show I ((execSort gs).foldl setIn m.mode)
    have hs := (execSort_stable gs).1
    exact h.foldl (execSort gs) (fun g hg => hc g (hs.mem_iff.1 hg)) (fun g hg => hp g (hs.mem_iff.1 hg)) _ hi
  | moveTo cs =>
    simp only [Call.run]
    rcases move_cases m hm cs with ⟨v, hv, -, he⟩ | ⟨e, he⟩ <;> rw [he] <;> exact hi
  | setPos p =>
    simp only [Call.run]
    by_cases hb : m.BadSys
    · rw [setPos_bad m hb]; exact hi
    · rw [setPos_ok m hm hb p hc.1 hc.2.1]; exact hi

theorem Kept.calls {P : GCode → Prop} {I : Mode → Prop} (h : Kept P I) (cs : List Call) (m : Machine)
    (hm : m.WF) (hc : ∀ c ∈ cs, c.OK m.axes m.absPos.unit) (hp : ∀ c ∈ cs, c.All P) (hi : I m.mode) :
    I (Call.runAll m cs).mode := by
  induction cs generalizing m with
  | nil => exact hi
  | cons c cs ih =>
    have hpath := path_call m hm c (hc c List.mem_cons_self)
    refine ih _ (hpath.wf hm) ?_ (fun d hd => hp d (List.mem_cons_of_mem _ hd))
      (h.call m hm c (hc c List.mem_cons_self) (hp c List.mem_cons_self) hi)
    intro d hd
    rw [hpath.frame.axes, hpath.frame.unit]
    exact hc d (List.mem_cons_of_mem _ hd)

theorem kept_ok : Kept (fun _ => True) ModeOK where
  set := fun md g h hg _ => setIn_ok md h g hg
  clear := by
    intro md h k g hg
    by_cases hk : k = 1
    · subst hk; rw [Function.update_self] at hg; cases hg
    · rw [Function.update_of_ne hk] at hg; exact h k g hg
  parsed := fun _ _ _ _ _ _ => trivial

/-- The gcode's word names its class, as it is for every gcode read from text. -/
def Named (g : GCode) : Prop := wordClass g.word = some g.cls

theorem kept_named : Kept Named (ModeAll Named) where
  set := fun md g h _ hp => setIn_all Named (fun _ h => h) md h g hp
  clear := by
    intro md h k g hg
    by_cases hk : k = 1
    · subst hk; rw [Function.update_self] at hg; cases hg
    · rw [Function.update_of_ne hk] at hg; exact h k g hg
  parsed := fun ws gs un h g hg => (C18_params ws gs un h g hg).2.2.1

/-- C35: after any history, also one with exceptions, the mode slots are consistent. -/
theorem C35_history (cs : List Call) (m : Machine) (hm : m.WF) (hmo : ModeOK m.mode)
    (hc : ∀ c ∈ cs, c.OK m.axes m.absPos.unit) : ModeOK (Call.runAll m cs).mode :=
  kept_ok.calls cs m hm hc (fun c _ => by cases c <;> simp [Call.All]) hmo

/-- C35: and the word of each gcode in a slot names its class, if that holds for the gcodes passed
to the machine (gcodes read from text always satisfy it). -/
theorem C35_named (cs : List Call) (m : Machine) (hm : m.WF) (hmo : ModeAll Named m.mode)
    (hc : ∀ c ∈ cs, c.OK m.axes m.absPos.unit) (hn : ∀ c ∈ cs, c.All Named) :
    ModeAll Named (Call.runAll m cs).mode :=
  kept_named.calls cs m hm hc hn hmo

/-- The default mode parses without an exception. -/
theorem default_ok : ∃ gs, Mode.defaultGcodes = .ok gs ∧ ∀ g ∈ gs, GOK g ∧ Named g := by
  have h : (match Mode.defaultGcodes with
      | .ok gs => gs.all (fun g => decide ((g.params.map Word.letter).Nodup ∧ ∀ w ∈ g.params, w.letter ∈ g.cls.params) && (wordClass g.word == some g.cls))
      | .error _ => false) = true := by
    decide +kernel
  cases hd : Mode.defaultGcodes with
  | error e => rw [hd] at h; cases h
  | ok gs =>
    rw [hd] at h
    refine ⟨gs, rfl, fun g hg => ?_⟩
    have := List.all_eq_true.1 h g hg
    simpa [Named, GOK] using this

theorem null_ok : ModeOK Mode.null ∧ ModeAll Named Mode.null := by
  constructor <;> intro k g h <;> cases h

/-- C35: the modes of new machines. -/
theorem C35_new : ModeOK new.mode ∧ ModeAll Named new.mode ∧ ModeOK newNull.mode ∧
    ModeAll Named newNull.mode := by
  obtain ⟨gs, h, hg⟩ := default_ok
  have hd : new.mode = (execSort gs).foldl setIn Mode.null := by
    show Mode.default = _
    unfold Mode.default
    rw [h]
    simp only
    rw [Pygcode.setMode_eq _ gs (fun g hm => (hg g hm).1)]
  have hs := (execSort_stable gs).1
  rw [hd]
  exact ⟨foldl_ok _ (fun g hm => (hg g (hs.mem_iff.1 hm)).1) _ null_ok.1,
    foldl_all Named (fun _ h => h) _ (fun g hm => (hg g (hs.mem_iff.1 hm)).2) _ null_ok.2, null_ok⟩

/-- C35: also assigning a mode attribute keeps the slots consistent. -/
theorem C35_assign (md md' : Mode) (h : ModeOK md) (k : ℕ) (v : Option GCode) (hv : ∀ g, v = some g → GOK g)
    (he : md.assign k v = .ok md') : ModeOK md' := by
  unfold Mode.assign at he
  cases v with
  | none =>
    cases he
    intro j x hx
    by_cases hk : j = k
    · subst hk; rw [Function.update_self] at hx; cases hx
    · rw [Function.update_of_ne hk] at hx; exact h j x hx
  | some g =>
    simp only at he
    split_ifs at he with hk
    rw [modalCopy_eq g (hv g rfl)] at he
    cases he
    have := setIn_ok md h g (hv g rfl)
    unfold setIn at this
    rw [not_not.1 hk] at this
    exact this

/-- A run with exceptions: the motion slot keeps only the modal parameters of G82. -/
example : ((Call.runAll { sampleMachine with mode := sampleMode }
    [.str "G82 X1 Z-2 R3 P4 L2".toList, .str "Q5".toList, .str "G17 G18".toList, .str "G91".toList]).mode.motion).map
      (fun g => (g.cls, g.params)) =
    some (.drillingCycleDwell, [⟨'X', .num 1⟩, ⟨'Z', .num (-2)⟩, ⟨'R', .num 3⟩, ⟨'P', .num 4⟩]) := by decide +kernel

/-! ## C36 -/

/-- C36: `set_mode` never fails on well-formed gcodes and puts in each group the modal copy of the
last gcode of that group in execution order (`out` is any stable ordering by execution order). -/
theorem C36_set_mode (md : Mode) (gs out : List GCode) (hg : ∀ g ∈ gs, GOK g) (ho : StableSorted gs out) :
    (md.setMode gs).2 = none ∧
    (∀ k, (∀ g ∈ gs, g.cls.group ≠ some k) → (md.setMode gs).1 k = md k) ∧
    (∀ k pre g post, out = pre ++ g :: post → g.cls.group = some k →
      (∀ x ∈ post, x.cls.group ≠ some k) →
      ∃ c, g.modalCopy = .ok c ∧ (md.setMode gs).1 k = some c) := by
  have hout : out = execSort gs := stableSorted_unique gs out _ ho (execSort_stable gs)
  subst hout
  rw [Pygcode.setMode_eq md gs hg]
  refine ⟨rfl, ?_, ?_⟩
  · intro k hk
    show ((execSort gs).foldl setIn md) k = md k
    rw [foldl_setIn]
    have : (execSort gs).filter (fun g => decide (g.cls.group = some k)) = [] := by
      rw [List.filter_eq_nil_iff]
      intro g hgm
      simpa using hk g (ho.1.mem_iff.1 hgm)
    rw [this]
    rfl
  · intro k pre g post he hgr hpost
    refine ⟨copyOf g, modalCopy_eq g (hg g (ho.1.mem_iff.1 (by rw [he]; simp))), ?_⟩
    show ((execSort gs).foldl setIn md) k = some (copyOf g)
    rw [foldl_setIn, he, List.filter_append, List.filter_cons]
    have hp : post.filter (fun g => decide (g.cls.group = some k)) = [] := by
      rw [List.filter_eq_nil_iff]
      intro x hx
      simpa using hpost x hx
    simp [hgr, hp]

/-- C36: the machine's `set_mode` sets the same mode, moves nothing, and selects the coordinate system
of the mode. -/
theorem C36_machine (m : Machine) (gs : List GCode) (hg : ∀ g ∈ gs, GOK g) :
    (m.setMode gs).2 = none ∧ (m.setMode gs).1.mode = (m.mode.setMode gs).1 ∧
    (m.setMode gs).1.absPos = m.absPos ∧ (m.setMode gs).1.rangeMin = m.rangeMin ∧
    (m.setMode gs).1.rangeMax = m.rangeMax ∧ (m.setMode gs).1.state.systems = m.state.systems ∧
    (m.setMode gs).1.state.offset = m.state.offset := by
  rw [Machine.setMode_eq m gs hg, Pygcode.setMode_eq m.mode gs hg]
  exact ⟨rfl, rfl, rfl, rfl, rfl, rfl, rfl⟩

/-- C36: assigning a mode attribute: a gcode of another group is refused with `MachineInvalidState`
(the old mode stays, being a value); one of the right group is stored as its modal copy, `None`
clears, and other groups are untouched. -/
theorem C36_assign (md : Mode) (k : ℕ) (v : Option GCode) (hv : ∀ g, v = some g → GOK g) :
    (md.assign k v = .error .invalidState ↔ ∃ g, v = some g ∧ g.cls.group ≠ some k) ∧
    ((∀ g, v = some g → g.cls.group = some k) → ∃ md', md.assign k v = .ok md' ∧
      (∀ j, j ≠ k → md' j = md j) ∧
      (v = none → md' k = none) ∧
      (∀ g, v = some g → ∃ c, g.modalCopy = .ok c ∧ md' k = some c)) := by
  cases v with
  | none =>
    refine ⟨by simp [Mode.assign], fun _ => ⟨_, rfl, ?_, ?_, ?_⟩⟩
    · intro j hj; exact Function.update_of_ne hj _ _
    · intro _; exact Function.update_self _ _ _
    · intro g hg; cases hg
  | some g =>
    have hc := modalCopy_eq g (hv g rfl)
    constructor
    · unfold Mode.assign
      simp only [hc]
      by_cases hk : g.cls.group ≠ some k
      · rw [if_pos hk]; exact ⟨fun _ => ⟨g, rfl, hk⟩, fun _ => rfl⟩
      · rw [if_neg hk]
        constructor
        · intro h; cases h
        · rintro ⟨x, hx, hx'⟩; cases hx; exact absurd hx' hk
    · intro h
      refine ⟨Function.update md k (some (copyOf g)), ?_, ?_, ?_, ?_⟩
      · unfold Mode.assign
        simp only [hc]
        rw [if_neg (by rw [h g rfl]; simp)]
      · intro j hj; exact Function.update_of_ne hj _ _
      · intro hn; cases hn
      · intro x hx; cases hx
        exact ⟨_, hc, Function.update_self _ _ _⟩

/-- Two spindle words and a distance mode: the last in execution order wins. -/
example : let gs : List GCode := [⟨.incrementalDistanceMode, ⟨'G', .num 91⟩, [], false⟩,
      ⟨.absoluteDistanceMode, ⟨'G', .num 90⟩, [], false⟩, ⟨.stopSpindle, ⟨'M', .num 5⟩, [], false⟩]
    ((Mode.null.setMode gs).1 3).map (fun g => g.cls) = some .absoluteDistanceMode ∧
    ((Mode.null.setMode gs).1 107).map (fun g => g.cls) = some .stopSpindle ∧
    (Mode.null.setMode gs).1 1 = none := by decide +kernel

example : (Mode.null.assign 2 (some ⟨.linearMove, ⟨'G', .num 1⟩, [], false⟩)).toOption.isNone = true := by
  decide +kernel

end Pygcode
