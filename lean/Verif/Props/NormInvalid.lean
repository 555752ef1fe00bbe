import Verif.Props.NormRemove

/-!
# C78: `pygcode-norm --rm_invalid_modal`
-/

namespace Pygcode
open Props Machine Spec

/-! ## Specification -/

/-- The same machine, refusing words that its motion mode does not accept. -/
def strict (m : Machine) : Machine := { m with ignoreInvalid := false }

/-- The left-over words of a block that mean something: those the active motion mode accepts, unless the block
has a motion gcode of its own. -/
def validWords (m : Machine) (b : Block) : List Word :=
  match m.mode.motion with
  | none => []
  | some g =>
    if ∃ x ∈ b.gcodes, x.cls.group = some 1 then []
    else b.modalParams.filter (fun w => decide (w.letter ∈ g.cls.params))

/-- The program without the others. -/
def runValid (m : Machine) : List (List Char) → MRes
  | [] => (m, none)
  | t :: ts =>
    match Line.ofText t with
    | .error e => (m, some e)
    | .ok l => andThen (m.processGcodes l.block.gcodes (validWords m l.block)) (fun m' => runValid m' ts)

/-- What is shown of the lines reads back. -/
def LinesTidyValid (o : NormOpts) (m : Machine) : List (List Char) → Prop
  | [] => True
  | t :: ts => (∀ l, Line.ofText t = .ok l →
      (if o.full then ∀ gs, m.blockModalGcodes { l.block with modalParams := validWords m l.block } = .ok gs → Tidy o l gs []
        else Tidy o l l.block.gcodes (validWords m l.block)) ∧
      LinesTidyValid o (m.processGcodes l.block.gcodes (validWords m l.block)).1 ts)

/-! ## The flag changes nothing else -/

/-- Outcomes of a strict machine. -/
def strictRes (r : MRes) : MRes := (strict r.1, r.2)

theorem strict_andThen (r : MRes) (f g : Machine → MRes) (h : ∀ m, g (strict m) = strictRes (f m)) :
    andThen (strictRes r) g = strictRes (andThen r f) := by
  obtain ⟨m, - | e⟩ := r
  · exact h m
  · rfl

theorem strict_setMode (m : Machine) (gs : List GCode) : (strict m).setMode gs = strictRes (m.setMode gs) := by
  unfold setMode strict strictRes
  simp only
  rcases m.mode.setMode gs with ⟨md, - | e⟩
  · simp only
    cases md.coordSystem <;> rfl
  · rfl

theorem strict_updateRange (m : Machine) (p : Position) : (strict m).updateRange p = strictRes (m.updateRange p) := by
  unfold updateRange
  simp only [show (strict m).rangeMin = m.rangeMin from rfl, show (strict m).rangeMax = m.rangeMax from rfl]
  cases Position.min p m.rangeMin with
  | error e => rfl
  | ok lo =>
    simp only
    cases Position.max p m.rangeMax <;> rfl

theorem strict_setPos (m : Machine) (p : Position) : (strict m).setPos p = strictRes (m.setPos p) := by
  unfold setPos
  have : (strict m).work2abs p = m.work2abs p := rfl
  rw [this]
  cases m.work2abs p with
  | error e => rfl
  | ok a => exact strict_updateRange { m with absPos := a } a

theorem strict_move (m : Machine) (cs : Coords) : (strict m).move cs = strictRes (m.move cs) := by
  unfold move
  have h1 : (strict m).incremental = m.incremental := rfl
  have h2 : (strict m).pos = m.pos := rfl
  have h3 : (strict m).axes = m.axes := rfl
  rw [h1, h2]
  simp only [h3]
  cases m.incremental
  · simp only [Bool.false_eq_true, if_false]
    cases m.pos with
    | error e => rfl
    | ok p =>
      simp only
      split
      · rfl
      · split
        · rfl
        · generalize p.update _ = r
          obtain ⟨q, - | e⟩ := r
          · exact strict_setPos m q
          · rfl
  · simp only [if_true]
    cases m.pos with
    | error e => rfl
    | ok p =>
      simp only
      split
      · rfl
      · cases p.add _ with
        | error e => rfl
        | ok q => exact strict_setPos m q

theorem strict_moves (cs : Coords) (n : ℕ) : ∀ m : Machine, (strict m).moves cs n = strictRes (m.moves cs n) := by
  induction n with
  | zero => exact fun m => rfl
  | succ n ih =>
    intro m
    unfold moves
    rw [strict_move]
    exact strict_andThen _ _ _ ih

theorem strict_effect (m : Machine) (g : GCode) : (strict m).effect g = strictRes (m.effect g) := by
  unfold effect
  cases g.cls.proc with
  | nothing => rfl
  | motion => exact strict_move m _
  | rapid => exact strict_move m _
  | cancel => rfl
  | canned =>
    simp only
    have : (strict m).cannedCoords g = m.cannedCoords g := rfl
    rw [this]
    cases m.cannedCoords g with
    | error e => rfl
    | ok cs =>
      simp only
      cases loopCount g with
      | error e => rfl
      | ok n => exact strict_moves cs n m

theorem strict_process (m : Machine) (g : GCode) : (strict m).process g = strictRes (m.process g) := by
  unfold process
  rw [strict_setMode]
  exact strict_andThen _ _ _ (fun m => strict_effect m g)

theorem strict_processAll (gs : List GCode) : ∀ m : Machine, (strict m).processAll gs = strictRes (m.processAll gs) := by
  induction gs with
  | nil => exact fun m => rfl
  | cons g gs ih =>
    intro m
    unfold processAll
    rw [strict_process]
    exact strict_andThen _ _ _ ih

/-! ## One line -/

theorem validWords_unused (m : Machine) (b : Block) (hb : ∀ w ∈ b.modalParams, wordClass w = none) :
    ∀ w ∈ validWords m b, wordClass w = none := by
  intro w hw
  unfold validWords at hw
  split at hw
  · simp at hw
  · split_ifs at hw
    · simp at hw
    · exact hb w (List.mem_of_mem_filter hw)

/-- Words that are accepted give the same gcode on a strict machine. -/
theorem modalGcode_valid (m : Machine) (hok : ModeOK m.mode) (hn : ModeAll Named m.mode) (b : Block)
    (hb : ∀ w ∈ b.modalParams, wordClass w = none) :
    (strict m).modalGcode (validWords m b) = m.modalGcode (validWords m b) := by
  by_cases hne : validWords m b = []
  · rw [hne]; rfl
  cases hmo : m.mode.motion with
  | none => exact absurd (by unfold validWords; rw [hmo]) hne
  | some g =>
    have h1 := modalGcode_closed m g hmo (hok 1 g hmo).2.1 (hn 1 g hmo) _ hne (validWords_unused m b hb)
    have h2 := modalGcode_closed (strict m) g hmo (hok 1 g hmo).2.1 (hn 1 g hmo) _ hne (validWords_unused m b hb)
    have hacc : ¬ ∃ w ∈ validWords m b, w.letter ∉ g.cls.params := by
      rintro ⟨w, hw, hl⟩
      unfold validWords at hw
      rw [hmo] at hw
      simp only at hw
      split_ifs at hw
      · simp at hw
      · exact hl (of_decide_eq_true (List.mem_filter.1 hw).2)
    rw [if_neg (fun h => hacc h.1)] at h1 h2
    rw [h1, h2]

theorem cleanBlock_valid {m : Machine} (hn : ModeAll Named m.mode) {b b' : Block}
    (hb : ∀ w ∈ b.modalParams, wordClass w = none) (h : m.cleanBlock b = .ok b') :
    b' = { b with modalParams := validWords m b } := by
  obtain ⟨h1, h2⟩ := C44_clean m (fun g hg => hn 1 g hg) b hb
  unfold validWords
  cases hmo : m.mode.motion with
  | none =>
    rw [h1 (.inl hmo)] at h
    exact (Except.ok.inj h).symm
  | some g =>
    simp only
    by_cases hx : ∃ x ∈ b.gcodes, x.cls.group = some 1
    · rw [if_pos hx]
      rw [h1 (.inr hx)] at h
      exact (Except.ok.inj h).symm
    · rw [if_neg hx]
      push Not at hx
      obtain ⟨h3, h4⟩ := h2 g hmo hx
      by_cases hnd : ((b.modalParams.filter (fun w => decide (w.letter ∈ g.cls.params))).map Word.letter).Nodup
      · rw [h3 hnd] at h
        exact (Except.ok.inj h).symm
      · rw [h4 hnd] at h; cases h

/-- One line. -/
theorem line_valid (o : NormOpts) (hr : o.rmGcodes = []) (he : o.cannedExpand = false) (hi : o.rmInvalid = true)
    (fuel : ℕ) {a b : Machine} (h : Alike (strict a) b) (hwf : a.WF) (ha : ModeOK a.mode) (hn : ModeAll Named a.mode)
    (t : List Char) (l : Line) (hl : Line.ofText t = .ok l)
    (ht : if o.full then ∀ gs, a.blockModalGcodes { l.block with modalParams := validWords a l.block } = .ok gs → Tidy o l gs []
        else Tidy o l l.block.gcodes (validWords a l.block))
    (hs : (o.line fuel a t).status = .done) :
    ∃ ls a' b', o.line fuel a t = ⟨ls, a', .done⟩ ∧ a.processGcodes l.block.gcodes (validWords a l.block) = (a', none) ∧
      (strict a).processGcodes l.block.gcodes (validWords a l.block) = (strict a', none) ∧
      readLines b ls = (b', none) ∧ Alike (strict a') b' := by
  have hb := line_block_ok hl
  obtain ⟨c1, c2⟩ := line_comment_ok hl
  unfold NormOpts.line at hs ⊢
  rw [hl] at hs ⊢
  simp only [hi, if_true] at hs ⊢
  cases hcl : a.cleanBlock l.block with
  | error e => rw [hcl] at hs; cases hs
  | ok cb =>
    have hcb := cleanBlock_valid hn hb.unused hcl
    subst hcb
    rw [hcl] at hs
    simp only [Except.map] at hs ⊢
    cases hgs : a.blockModalGcodes { l.block with modalParams := validWords a l.block } with
    | error e => rw [hgs] at hs; cases hs
    | ok gs =>
      rw [hgs] at hs
      simp only [he, Bool.false_and, Bool.false_eq_true, if_false] at hs ⊢
      have hun := validWords_unused a l.block hb.unused
      obtain ⟨e1, e2, e3, e4, e5, e6⟩ := effective_block (b := { l.block with modalParams := validWords a l.block })
        hb.ok hb.cls hb.ws hun ha hn hgs
      have hsp : (strict a).processGcodes l.block.gcodes (validWords a l.block) =
          strictRes (a.processGcodes l.block.gcodes (validWords a l.block)) := by
        unfold processGcodes
        rw [modalGcode_valid a ha hn l.block hb.unused]
        cases a.modalGcode (validWords a l.block) with
        | error e => rfl
        | ok og => exact strict_processAll _ a
      have hpb : a.processBlock ⟨l.block.words, l.block.gcodes, validWords a l.block⟩ =
          a.processGcodes l.block.gcodes (validWords a l.block) := rfl
      have key : ∃ ls, (if o.full = true then o.write gs [] l.comment l.macro?
          else o.write l.block.gcodes (validWords a l.block) l.comment l.macro?) = .ok ls ∧
          AlikeRes ((strict a).processGcodes l.block.gcodes (validWords a l.block)) (readLines b ls) := by
        by_cases hf : o.full = true
        · rw [if_pos hf] at ht ⊢
          have := write_read o hr h (show (strict a).WF from ⟨hwf.abs, hwf.absWF, hwf.sys, hwf.off, hwf.offWF, hwf.lo, hwf.hi⟩)
            ha hn l gs [] (ht gs hgs) (fun _ => rfl) e1 e2 e3 e4 (by simp) c1 c2
          rw [processGcodes_sorted, e5, strict_processAll, ← e6, hpb, ← hsp] at this
          exact this
        · rw [if_neg hf] at ht ⊢
          exact write_read o hr h (show (strict a).WF from ⟨hwf.abs, hwf.absWF, hwf.sys, hwf.off, hwf.offWF, hwf.lo, hwf.hi⟩)
            ha hn l _ _ ht (fun h => absurd h hf) hb.cls hb.ok hb.ordered hb.ws hun c1 c2
      obtain ⟨ls, hw, hal⟩ := key
      unfold NormOpts.plainLine at hs ⊢
      simp only at hs ⊢
      rw [hw] at hs ⊢
      rw [hsp] at hal ⊢
      unfold NormRes.put NormRes.andThen at hs ⊢
      simp only [hpb] at hs ⊢
      generalize a.processGcodes l.block.gcodes (validWords a l.block) = r at *
      obtain ⟨a', - | e⟩ := r
      · refine ⟨ls, a', (readLines b ls).1, by simp [NormRes.ofM], rfl, rfl, Prod.ext rfl hal.2.symm, hal.1⟩
      · cases hs

/-- **C78**: when `pygcode-norm --rm_invalid_modal` finishes, a machine that refuses invalid words accepts what was
printed, and it leads to the same state as the input with the invalid words left out. -/
theorem C78_same (o : NormOpts) (hr : o.rmGcodes = []) (he : o.cannedExpand = false) (hi : o.rmInvalid = true)
    (fuel : ℕ) (m : Machine) (hwf : m.WF) (hok : ModeOK m.mode) (hn : ModeAll Named m.mode)
    (ts : List (List Char)) (ls : List (List Char)) (a : Machine) (hrun : o.loop fuel m ts = ⟨ls, a, .done⟩)
    (htd : LinesTidyValid o m ts) :
    ∃ b, readLines (strict m) ls = (b, none) ∧ Alike (strict a) b ∧ runValid (strict m) ts = (strict a, none) := by
  suffices key : ∀ (ts : List (List Char)) (m b ls), m.WF → ModeOK m.mode → ModeAll Named m.mode → Alike (strict m) b →
      o.loop fuel m ts = ⟨ls, a, .done⟩ → LinesTidyValid o m ts →
      ∃ b', readLines b ls = (b', none) ∧ Alike (strict a) b' ∧ runValid (strict m) ts = (strict a, none) from
    key ts m (strict m) ls hwf hok hn (.refl _) hrun htd
  intro ts
  induction ts with
  | nil =>
    intro m b ls _ _ _ h hrun _
    cases hrun
    exact ⟨b, rfl, h, rfl⟩
  | cons t ts ih =>
    intro m b ls hwf hok hn h hrun htd
    unfold NormOpts.loop NormRes.andThen at hrun
    have hs : (o.line fuel m t).status = .done := by
      split at hrun
      · assumption
      · rw [hrun]
    cases hl : Line.ofText t with
    | error e =>
      unfold NormOpts.line at hs
      rw [hl] at hs
      cases hs
    | ok l =>
      obtain ⟨h1, h2⟩ := htd l hl
      obtain ⟨ls1, m', b', k1, k2, k3, k4, k5⟩ := line_valid o hr he hi fuel h hwf hok hn t l hl h1 hs
      rw [k1] at hrun
      simp only at hrun
      rw [k2] at h2
      have hbl := line_block_ok hl
      have hcall : (Call.gcodes l.block.gcodes (validWords m l.block)).OK m.axes m.absPos.unit := hbl.ok
      have w1 := (path_call m hwf _ hcall).wf hwf
      have w2 := kept_ok.call m hwf _ hcall (fun _ _ => trivial) hok
      have w3 := kept_named.call m hwf _ hcall hbl.cls hn
      simp only [Call.run, k2] at w1 w2 w3
      have hrun' : o.loop fuel m' ts = ⟨(o.loop fuel m' ts).out, a, .done⟩ := by
        obtain ⟨-, q2, q3⟩ := NormRes.mk.inj hrun
        rw [← q2, ← q3]
      obtain ⟨b'', v1, v2, v3⟩ := ih m' b' _ w1 w2 w3 k5 hrun' h2
      refine ⟨b'', ?_, v2, ?_⟩
      · rw [← (NormRes.mk.inj hrun).1, readLines_append, k4]
        exact v1
      · unfold runValid
        rw [hl]
        simp only
        have : validWords (strict m) l.block = validWords m l.block := rfl
        rw [this, k3]
        exact v3

/-- No line of the program has invalid words, or repeats a letter among its left-over words. -/
def NothingInvalid (m : Machine) : List (List Char) → Prop
  | [] => True
  | t :: ts => (∀ l, Line.ofText t = .ok l →
      validWords m l.block = l.block.modalParams ∧ (l.block.modalParams.map Word.letter).Nodup) ∧
    NothingInvalid (m.processStr t).1 ts

/-- For such a program the option changes nothing. -/
theorem C78_valid (o : NormOpts) (he : o.cannedExpand = false) (fuel : ℕ)
    (ts : List (List Char)) : ∀ (m : Machine), m.WF → ModeOK m.mode → ModeAll Named m.mode → NothingInvalid m ts →
    ({ o with rmInvalid := true } : NormOpts).loop fuel m ts = ({ o with rmInvalid := false } : NormOpts).loop fuel m ts := by
  induction ts with
  | nil => exact fun m _ _ _ _ => rfl
  | cons t ts ih =>
    intro m hwf hok hn h
    have hline : ({ o with rmInvalid := true } : NormOpts).line fuel m t =
        ({ o with rmInvalid := false } : NormOpts).line fuel m t := by
      unfold NormOpts.line
      cases hl : Line.ofText t with
      | error e => rfl
      | ok l =>
        obtain ⟨h1, h2⟩ := h.1 l hl
        have hc : m.cleanBlock l.block = .ok l.block := by
          obtain ⟨c1, c2⟩ := C44_clean m (fun g hg => hn 1 g hg) l.block (line_block_ok hl).unused
          unfold validWords at h1
          cases hmo : m.mode.motion with
          | none =>
            rw [hmo] at h1
            rw [c1 (.inl hmo)]
            simp only at h1
            exact congrArg Except.ok (congrArg (Block.mk l.block.words l.block.gcodes) h1)
          | some g =>
            rw [hmo] at h1
            simp only at h1
            by_cases hx : ∃ x ∈ l.block.gcodes, x.cls.group = some 1
            · rw [if_pos hx] at h1
              rw [c1 (.inr hx)]
              exact congrArg Except.ok (congrArg (Block.mk l.block.words l.block.gcodes) h1)
            · rw [if_neg hx] at h1
              push Not at hx
              rw [(c2 g hmo hx).1 (by rw [h1]; exact h2), h1]
        simp only [if_true, Bool.false_eq_true, if_false, hc, Except.map]
        cases m.blockModalGcodes l.block with
        | error e => rfl
        | ok gs =>
          simp only [he, Bool.false_and, Bool.false_eq_true, if_false]
          rfl
    unfold NormOpts.loop
    rw [hline]
    by_cases hx : ∃ l gs, Line.ofText t = .ok l ∧ m.blockModalGcodes l.block = .ok gs
    · obtain ⟨l, gs, hl, hgs⟩ := hx
      rw [line_plain { o with rmInvalid := false } he rfl fuel m t l hl gs hgs]
      unfold NormRes.andThen
      cases hs : (({ o with rmInvalid := false } : NormOpts).plainLine m l gs).status with
      | done =>
        have hm : (({ o with rmInvalid := false } : NormOpts).plainLine m l gs).m = (m.processStr t).1 := by
          rw [plainLine_m _ m l gs hs]
          unfold processStr
          rw [hl]
        simp only
        have hcall : (Call.str t).OK m.axes m.absPos.unit := trivial
        have hih := ih (m.processStr t).1 ((path_call m hwf (.str t) hcall).wf hwf) (kept_ok.call m hwf (.str t) hcall trivial hok)
          (kept_named.call m hwf (.str t) hcall trivial hn) h.2
        rw [hm, hih]
      | raised e => rfl
      | running => rfl
    · obtain ⟨e, h1, -⟩ := line_error { o with rmInvalid := false } rfl fuel m t hx
      rw [h1]
      rfl

/-! ## Cases -/

def linesTidyValidB (o : NormOpts) (m : Machine) : List (List Char) → Bool
  | [] => true
  | t :: ts =>
    match Line.ofText t with
    | .error _ => true
    | .ok l =>
      (if o.full then
        match m.blockModalGcodes { l.block with modalParams := validWords m l.block } with
        | .error _ => true
        | .ok gs => tidyB o l gs []
      else tidyB o l l.block.gcodes (validWords m l.block)) &&
      linesTidyValidB o (m.processGcodes l.block.gcodes (validWords m l.block)).1 ts

theorem linesTidyValidB_sound {o : NormOpts} (ts : List (List Char)) :
    ∀ {m : Machine}, linesTidyValidB o m ts = true → LinesTidyValid o m ts := by
  induction ts with
  | nil => exact fun _ => trivial
  | cons t ts ih =>
    intro m h
    unfold linesTidyValidB at h
    intro l hl
    rw [hl] at h
    simp only [Bool.and_eq_true] at h
    refine ⟨?_, ih h.2⟩
    have h1 := h.1
    split_ifs at h1 ⊢
    · intro gs hgs
      rw [hgs] at h1
      exact tidyB_sound h1
    · exact tidyB_sound h1

/-- A program with words that mean nothing: `Q5` before any motion, `R3` under `G1`, `I9` beside a `G0`. -/
def invalidSample : List (List Char) :=
  ["G17 G90 G21 Q5", "G1 F100 Z5 X1", "Y2 R3 (side)", "G0 X4 I9", "X5"].map String.toList

example : (({ rmInvalid := true } : NormOpts).loop 0 (({ rmInvalid := true } : NormOpts).machine Mode.null) invalidSample).out =
    ["G17 G90 G21", "G01 X1 Z5 F100", "Y2 (side)", "G00 X4", "X5"].map String.toList ∧
    (({ rmInvalid := true } : NormOpts).loop 0 (({ rmInvalid := true } : NormOpts).machine Mode.null) invalidSample).status = .done ∧
    (readLines newNull invalidSample).2 = some .invalidState := by decide +kernel

/-- The theorem applies to it. -/
example : ∃ b, readLines newNull (({ rmInvalid := true } : NormOpts).loop 0 newNull invalidSample).out = (b, none) ∧
    Alike (strict (({ rmInvalid := true } : NormOpts).loop 0 newNull invalidSample).m) b ∧
    runValid newNull invalidSample = (strict (({ rmInvalid := true } : NormOpts).loop 0 newNull invalidSample).m, none) := by
  have hd : (({ rmInvalid := true } : NormOpts).loop 0 newNull invalidSample).status = .done := by decide +kernel
  exact C78_same { rmInvalid := true } rfl rfl rfl 0 newNull (reader_null xyz).wf (reader_null xyz).ok (reader_null xyz).named
    invalidSample _ _ (by rw [← hd]) (linesTidyValidB_sound _ (by decide +kernel))

/-- A letter given twice, which a machine accepts (the last one counts), is refused with the option. -/
theorem C78_repeat_refuted :
    ∃ ts : List (List Char), (readLines newNull ts).2 = none ∧
      (({ rmInvalid := false } : NormOpts).loop 0 newNull ts).status = .done ∧
      (({ rmInvalid := true } : NormOpts).loop 0 newNull ts).status = .raised .param :=
  ⟨["G90 G1 X1", "X2 X3"].map String.toList, by decide +kernel⟩

/-- A valid program, for `C78_valid`. -/
example : NothingInvalid newNull (["G90 G1 X1", "X2 Y3"].map String.toList) ∧
    (({ rmInvalid := true } : NormOpts).loop 0 newNull (["G90 G1 X1", "X2 Y3"].map String.toList)).out =
      ["G90 G01 X1", "X2 Y3"].map String.toList := by
  refine ⟨⟨?_, ?_, trivial⟩, by decide +kernel⟩
  · intro l hl
    have : Line.ofText "G90 G1 X1".toList = .ok l := hl
    have hx : (match Line.ofText "G90 G1 X1".toList with
      | .ok l => decide (validWords newNull l.block = l.block.modalParams ∧ (l.block.modalParams.map Word.letter).Nodup)
      | .error _ => true) = true := by decide +kernel
    rw [this] at hx
    exact of_decide_eq_true hx
  · intro l hl
    have : Line.ofText "X2 Y3".toList = .ok l := hl
    have hx : (match Line.ofText "X2 Y3".toList with
      | .ok l => decide (validWords (newNull.processStr "G90 G1 X1".toList).1 l.block = l.block.modalParams ∧
          (l.block.modalParams.map Word.letter).Nodup)
      | .error _ => true) = true := by decide +kernel
    rw [this] at hx
    exact of_decide_eq_true hx

end Pygcode
