import Verif.Props.Failures
import Verif.Model.Chars

/-!
# What a failing line leaves behind (C112)

`machine.process_str(text)` (machine.py:485-518) executes the gcodes of a line one after the other: when one
of them raises an exception, those before it have been executed.
-/

namespace Pygcode
open Props Machine Spec

/-- A canned cycle that cannot be executed becomes the motion mode, and changes nothing else. -/
theorem cycle_failed {m : Machine} (h : Fit m) {g : GCode} (hg : Fine g) (hc : g.cls.isSub .cannedCycle = true)
    {m' : Machine} {e : Err} (hf : m.process g = (m', some e)) :
    m' = { m with mode := Function.update m.mode 1 (some (copyOf g)) } ∧ (e = .attribute ∨ e = .type) := by
  obtain ⟨hp, -, -, hgr⟩ := (failure_table g.cls).2.1 hc
  have hk : g.cls ≠ .cannedCycle := by
    intro hk
    have hn := hg.named
    unfold Named at hn
    rw [hk] at hn
    have := wordClass_letter hn
    rw [show classLetters .cannedCycle = [] from by decide +kernel] at this
    cases this
  obtain ⟨c1, c2⟩ := cycle_step h hg hc
  have he : (m.process g).2 = some e := by rw [hf]
  have hm' : m' = (m.process g).1 := by rw [hf]
  have hb := not_badSys h.sound.dict
  have hwf := h.sound.wf
  have hproc : m.process g =
      ({ m with mode := Function.update m.mode 1 (some (copyOf g)) } : Machine).effect g := by
    rw [process_eq m g hg.gok, setIn_motion m.mode g hgr, withMode_motion m h.sound.sync]
  have hR := (canned_params g.cls hp hk).2
  have hget : g.get 'R' = .ok ((g.param 'R').map Word.val) := by unfold GCode.get; rw [if_pos hR]
  cases hpl : m.mode 2 with
  | none =>
    have := c1 hpl
    rw [he] at this
    refine ⟨?_, .inl (by simpa using this)⟩
    have hpl' : Mode.plane (Function.update m.mode 1 (some (copyOf g))) = none := hpl
    rw [hm', hproc]
    unfold effect cannedCoords
    rw [hp]
    simp only [hpl']
  | some pl =>
    obtain ⟨d1, d2⟩ := c2 pl hpl
    have hnot : ¬ (ReturnsToR m.mode → pl.cls.normalAxis ≠ none ∧ g.num? 'R' ≠ none) := by
      intro hx
      rw [d2 hx] at he
      cases he
    have hr : ReturnsToR m.mode := by
      by_contra hx
      exact hnot (fun h => absurd h hx)
    have hor : pl.cls.normalAxis = none ∨ g.num? 'R' = none := by
      by_contra hx
      exact hnot (fun _ => not_or.1 hx)
    have ht := d1 hr hor
    rw [he] at ht
    refine ⟨?_, .inr (by simpa using ht)⟩
    have hgrp : pl.cls.group = some 2 := (h.sound.ok 2 pl hpl).1
    obtain ⟨t1, t2⟩ := (failure_table pl.cls).2.2.2.2 hgrp
    have hpl' : Mode.plane (Function.update m.mode 1 (some (copyOf g))) = some pl := hpl
    cases hn : pl.cls.normalAxis.bind Axis.ofLetter with
    | none =>
      obtain ⟨r, hr, hsub⟩ := hr
      have hr' : Mode.cannedReturn (Function.update m.mode 1 (some (copyOf g))) = some r := hr
      rw [hm', hproc]
      unfold effect cannedCoords
      rw [hp]
      simp only [hpl', hr', hsub, if_true, hget, hn]
    | some n =>
      have hn' : pl.cls.normalAxis ≠ none := by
        intro h0
        rw [t1.2 h0] at hn
        cases hn
      obtain ⟨-, a1, a2, a3⟩ := C45_missing_R m hwf hb h.sound.sync g hg.gok hp hk hg.count pl hpl n hn
        (h.axes (t2 n hn)) hr (hor.resolve_left hn')
      have hmd := process_mode m hwf g hg.gok
      have hfr : frozen (m.process g).1 = frozen m := process_frozen m hwf g hg.gok
      have hst : (m.process g).1.state = m.state := by
        have hw : ({ m with mode := Function.update m.mode 1 (some (copyOf g)) } : Machine).WF :=
          ⟨hwf.abs, hwf.absWF, hwf.sys, hwf.off, hwf.offWF, hwf.lo, hwf.hi⟩
        rw [hproc, (effect_mode _ hw g).2]
      have hmd' : (m.process g).1.mode = Function.update m.mode 1 (some (copyOf g)) := by
        rw [hmd]
        unfold stepMode
        rw [if_neg (by rw [hp]; decide), setIn_motion m.mode g hgr]
      rw [← hm'] at a1 a2 a3 hfr hst hmd'
      obtain ⟨x1, x2, x3, x4, x5, x6, x7⟩ := m'
      have h1 : x1 = m.axes := congrArg Prod.fst hfr
      have h2 : x2 = m.ignoreInvalid := congrArg (fun x => x.2.1) hfr
      simp only at a1 a2 a3 hst hmd'
      subst h1 h2 a1 a2 a3 hst hmd'
      rfl

/-- Executing gcodes one after the other stops at a cycle. -/
theorem all_failed (gs : List GCode) (hg : ∀ g ∈ gs, Fine g) :
    ∀ {m m' : Machine} {e : Err}, Fit m → m.processAll gs = (m', some e) →
    ∃ pre g post m₁, gs = pre ++ g :: post ∧ m.processAll pre = (m₁, none) ∧ g.cls.isSub .cannedCycle = true ∧
      m' = { m₁ with mode := Function.update m₁.mode 1 (some (copyOf g)) } ∧ (e = .attribute ∨ e = .type) := by
  induction gs with
  | nil => intro m m' e _ h; simp [processAll] at h
  | cons g gs ih =>
    intro m m' e hm h
    have hgf := hg g List.mem_cons_self
    cases hp : m.process g with
    | mk m₁ o =>
      cases o with
      | some e' =>
        have hx : (m₁, some e') = (m', some e) := by
          rw [← h, processAll, hp]
          rfl
        cases hx
        cases hc : g.cls.isSub .cannedCycle with
        | false =>
          have := plain_step hm hgf hc
          rw [hp] at this
          cases this
        | true =>
          obtain ⟨h1, h2⟩ := cycle_failed hm hgf hc hp
          exact ⟨[], g, gs, m, rfl, rfl, hc, h1, h2⟩
      | none =>
        have hfit : Fit m₁ := by
          have := hm.process hgf
          rwa [hp] at this
        have hx : m₁.processAll gs = (m', some e) := by
          rw [← h, processAll, hp]
          rfl
        obtain ⟨pre, x, post, m₂, h1, h2, h3, h4, h5⟩ := ih (fun y hy => hg y (List.mem_cons_of_mem _ hy)) hfit hx
        refine ⟨g :: pre, x, post, m₂, by rw [h1]; rfl, ?_, h3, h4, h5⟩
        rw [processAll, hp]
        exact h2

/-! ## Lines -/

/-- Each gcode is executed, one after the other. -/
inductive CarriedOut : Machine → List GCode → Machine → Prop
  | nil {m} : CarriedOut m [] m
  | cons {m m₁ m₂ g gs} : m.process g = (m₁, none) → CarriedOut m₁ gs m₂ → CarriedOut m (g :: gs) m₂

theorem carried_of_all (gs : List GCode) : ∀ {m m' : Machine}, m.processAll gs = (m', none) → CarriedOut m gs m' := by
  induction gs with
  | nil => intro m m' h; cases h; exact .nil
  | cons g gs ih =>
    intro m m' h
    cases hp : m.process g with
    | mk m₁ o =>
      rw [processAll, hp] at h
      cases o with
      | some e => cases h
      | none => exact .cons hp (ih h)

theorem modal_some {m : Machine} (hm : Sound m) {b : Block} (hb : BlockOK b) {g : GCode}
    (h : m.modalGcode b.modalParams = .ok (some g)) :
    ∃ x, b.modalParams ≠ [] ∧ m.mode.motion = some x ∧ g = modalOf x b.modalParams := by
  by_cases hne : b.modalParams = []
  · rw [hne] at h; cases h
  · cases hx : m.mode.motion with
    | none =>
      unfold modalGcode at h
      rw [if_neg hne, hx] at h
      simp only at h
      split_ifs at h
      cases h
    | some x =>
      rw [modalGcode_closed m x hx (hm.ok 1 x hx).2.1 (hm.named 1 x hx) _ hne hb.unused] at h
      split_ifs at h
      cases h
      exact ⟨x, hne, rfl, rfl⟩

theorem executed_fine {m : Machine} (hm : Sound m) {t : List Char} {l : Line} (hl : Line.ofText t = .ok l)
    {og : Option GCode} (hog : m.modalGcode l.block.modalParams = .ok og) :
    ∀ g ∈ execSort (l.block.gcodes ++ og.toList), Fine g := by
  have hb := line_block_ok hl
  obtain ⟨s, hlex⟩ := line_lexed hl
  have hcount := lexed_count hlex
  intro g hg
  rcases List.mem_append.1 ((List.perm_insertionSort _ _).mem_iff.1 hg) with hg | hg
  · exact ⟨hb.ok g hg, hb.cls g hg, count_loops (fun w hw =>
      hcount w (hb.perm.mem_iff.1 (List.mem_append_left _ (List.mem_flatMap.2 ⟨g, hg, List.mem_cons_of_mem _ hw⟩))))⟩
  · obtain rfl : og = some g := by simpa using hg
    obtain ⟨x, hne, hx, rfl⟩ := modal_some hm hb hog
    refine ⟨modalOf_gok x (hm.ok 1 x hx).2.1 _, hm.named 1 x hx, count_loops ?_⟩
    intro w hw hL
    rcases override_mem _ _ _ (List.mem_filter.1 hw).1 with h | h
    · have h1 := (hm.ok 1 x hx).2.2 w h
      rw [hL] at h1
      exact absurd h1 (motion_table x.cls (hm.ok 1 x hx).1)
    · exact hcount w (hb.perm.mem_iff.1 (List.mem_append_right _ h)) hL

/-- **C112** (refused): a text that is no line, or whose left-over words the motion mode cannot take, leaves
the machine as it was. -/
theorem C112_refused {m : Machine} (hm : Sound m) (hax : xyz ⊆ m.axes) {t : List Char} {m' : Machine} {e : Err}
    (h : m.processStr t = (m', some e)) (he : (∃ e', Line.ofText t = .error e') ∨ e = .invalidState) : m' = m := by
  cases hl : Line.ofText t with
  | error e' =>
    rw [C84_refused m t e' hl] at h
    cases h
    rfl
  | ok l =>
    rcases he with ⟨e', he⟩ | rfl
    · rw [hl] at he; cases he
    · rcases hx : m.modalGcode l.block.modalParams with e' | og
      · unfold processStr processBlock processGcodes at h
        rw [hl] at h
        simp only [hx] at h
        cases h
        rfl
      · unfold processStr processBlock processGcodes at h
        rw [hl] at h
        simp only [hx] at h
        obtain ⟨_, _, _, _, -, -, -, -, h⟩ := all_failed _ (executed_fine hm hl hx) ⟨hm, hax⟩ h
        rcases h with h | h <;> cases h

/-- **C112** (failed): any other exception comes from a canned cycle.  What is executed before it stays
executed, the cycle becomes the motion mode without having moved anything, and nothing after it is executed. -/
theorem C112_failed {m : Machine} (hm : Sound m) (hax : xyz ⊆ m.axes) {t : List Char} {l : Line}
    (hl : Line.ofText t = .ok l) {m' : Machine} {e : Err} (h : m.processStr t = (m', some e)) (he : e ≠ .invalidState) :
    ∃ pre g post m₁ c, m.blockModalGcodes l.block = .ok (pre ++ g :: post) ∧ CarriedOut m pre m₁ ∧
      g.cls.isSub .cannedCycle = true ∧ g.modalCopy = .ok c ∧
      m' = { m₁ with mode := Function.update m₁.mode 1 (some c) } := by
  rcases hx : m.modalGcode l.block.modalParams with e' | og
  · exfalso
    have : e = e' := by
      unfold processStr processBlock processGcodes at h
      rw [hl] at h
      simp only [hx] at h
      cases h
      rfl
    subst this
    by_cases hne : l.block.modalParams = []
    · rw [hne] at hx; cases hx
    · cases hmo : m.mode.motion with
      | none =>
        unfold modalGcode at hx
        rw [if_neg hne, hmo] at hx
        simp only at hx
        split_ifs at hx
        cases hx
        exact he rfl
      | some x =>
        rw [modalGcode_closed m x hmo (hm.ok 1 x hmo).2.1 (hm.named 1 x hmo) _ hne (line_block_ok hl).unused] at hx
        split_ifs at hx
        cases hx
        exact he rfl
  · have hf := executed_fine hm hl hx
    unfold processStr processBlock processGcodes at h
    rw [hl] at h
    simp only [hx] at h
    obtain ⟨pre, g, post, m₁, h1, h2, h3, h4, -⟩ := all_failed _ hf ⟨hm, hax⟩ h
    refine ⟨pre, g, post, m₁, copyOf g, ?_, carried_of_all _ h2, h3, ?_, h4⟩
    · unfold blockModalGcodes
      rw [hx]
      simp only [h1]
    · exact modalCopy_eq g (hf g (by rw [h1]; simp)).gok

/-- Gcodes that are no motions do not move the machine. -/
theorem carried_still {m m' : Machine} {gs : List GCode} (h : CarriedOut m gs m') :
    Fit m → (∀ g ∈ gs, Fine g ∧ g.cls.group ≠ some 1) →
    m'.absPos = m.absPos ∧ m'.rangeMin = m.rangeMin ∧ m'.rangeMax = m.rangeMax := by
  induction h with
  | nil => exact fun _ _ => ⟨rfl, rfl, rfl⟩
  | @cons m m₁ m₂ g gs h1 _ ih =>
    intro hm hg
    obtain ⟨hgf, hgr⟩ := hg g List.mem_cons_self
    have hfit : Fit m₁ := by
      have := hm.process hgf
      rwa [h1] at this
    obtain ⟨a1, a2, a3⟩ := ih hfit (fun x hx => hg x (List.mem_cons_of_mem _ hx))
    have hc : g.cls.isSub .cannedCycle = false := by
      rw [← Bool.not_eq_true]
      exact fun hc => hgr ((failure_table g.cls).2.1 hc).2.2.2
    have hp := process_after m hm.sound.wf hm.sound.dict g hgf.gok hc
    rw [h1] at hp
    obtain rfl : m₁ = after m g := congrArg Prod.fst hp
    have hstill : (after m g).absPos = m.absPos ∧ (after m g).rangeMin = m.rangeMin ∧
        (after m g).rangeMax = m.rangeMax := by
      unfold after
      cases hq : g.cls.proc with
      | motion => exact absurd (moving_group g.cls (.inl hq)) hgr
      | rapid => exact absurd (moving_group g.cls (.inr (.inl hq))) hgr
      | canned => exact absurd (moving_group g.cls (.inr (.inr hq))) hgr
      | nothing => exact ⟨rfl, rfl, rfl⟩
      | cancel => exact ⟨rfl, rfl, rfl⟩
    exact ⟨a1.trans hstill.1, a2.trans hstill.2.1, a3.trans hstill.2.2⟩

/-- **C112** (place): a failing line does not move the machine, if it has no motion gcode beside left-over
words. -/
theorem C112_place {m : Machine} (hm : Sound m) (hax : xyz ⊆ m.axes) {t : List Char} {m' : Machine} {e : Err}
    (h : m.processStr t = (m', some e))
    (hone : ∀ l, Line.ofText t = .ok l → l.block.modalParams = [] ∨ ∀ g ∈ l.block.gcodes, g.cls.group ≠ some 1) :
    m'.absPos = m.absPos ∧ m'.rangeMin = m.rangeMin ∧ m'.rangeMax = m.rangeMax := by
  cases hl : Line.ofText t with
  | error e' =>
    rw [C112_refused hm hax h (.inl ⟨e', hl⟩)]
    exact ⟨rfl, rfl, rfl⟩
  | ok l =>
    by_cases he : e = .invalidState
    · rw [C112_refused hm hax h (.inr he)]
      exact ⟨rfl, rfl, rfl⟩
    · obtain ⟨pre, g, post, m₁, c, h1, h2, h3, -, rfl⟩ := C112_failed hm hax hl h he
      obtain ⟨og, hog, h1⟩ : ∃ og, m.modalGcode l.block.modalParams = .ok og ∧
          execSort (l.block.gcodes ++ og.toList) = pre ++ g :: post := by
        unfold blockModalGcodes at h1
        rcases hx : m.modalGcode l.block.modalParams with e' | og
        · rw [hx] at h1; cases h1
        · rw [hx] at h1
          exact ⟨og, rfl, by simpa using h1⟩
      have hf := executed_fine hm hl hog
      have hb := line_block_ok hl
      have hperm : (execSort (l.block.gcodes ++ og.toList)).Perm (l.block.gcodes ++ og.toList) :=
        List.perm_insertionSort _ _
      have hg1 := ((failure_table g.cls).2.1 h3).2.2.2
      -- at most one gcode of the group of motions is executed
      have hone' : ((l.block.gcodes ++ og.toList).filter (fun x => decide (x.cls.group = some 1))).length ≤ 1 := by
        rw [List.filter_append, List.length_append]
        have hblock : (l.block.gcodes.filter (fun x => decide (x.cls.group = some 1))).length ≤ 1 := by
          have hpw := (pairwise_of_noConflict _ hb.noConflict).filter (fun x => decide (x.cls.group = some 1))
          match hq : l.block.gcodes.filter (fun x => decide (x.cls.group = some 1)) with
          | [] => simp [hq]
          | [_] => simp [hq]
          | a :: b :: r =>
            exfalso
            rw [hq] at hpw
            have hab := (List.pairwise_cons.1 hpw).1 b (by simp)
            have ha : a.cls.group = some 1 := by
              have : a ∈ l.block.gcodes.filter (fun x => decide (x.cls.group = some 1)) := by rw [hq]; simp
              simpa using (List.mem_filter.1 this).2
            have hb' : b.cls.group = some 1 := by
              have : b ∈ l.block.gcodes.filter (fun x => decide (x.cls.group = some 1)) := by rw [hq]; simp
              simpa using (List.mem_filter.1 this).2
            exact hab.2 1 ha hb'
        rcases hone l hl with h0 | h0
        · rw [h0] at hog
          obtain rfl : og = none := by cases hog; rfl
          simpa using hblock
        · have : l.block.gcodes.filter (fun x => decide (x.cls.group = some 1)) = [] := by
            rw [List.filter_eq_nil_iff]
            intro x hx
            simpa using h0 x hx
          rw [this]
          have := List.length_filter_le (fun x : GCode => decide (x.cls.group = some 1)) og.toList
          cases og <;> simp_all
      have hlen : ((pre ++ g :: post).filter (fun x => decide (x.cls.group = some 1))).length ≤ 1 := by
        rw [← h1, (hperm.filter _).length_eq]
        exact hone'
      have hpre : ∀ x ∈ pre, x.cls.group ≠ some 1 := by
        intro x hx hx1
        rw [List.filter_append, List.length_append, List.filter_cons, if_pos (by simpa using hg1)] at hlen
        have : 0 < (pre.filter (fun x => decide (x.cls.group = some 1))).length :=
          List.length_pos_of_mem (List.mem_filter.2 ⟨hx, by simpa using hx1⟩)
        simp only [List.length_cons] at hlen
        omega
      have hst := carried_still h2 ⟨hm, hax⟩ (fun x hx => ⟨hf x (by rw [h1]; simp [hx]), hpre x hx⟩)
      exact hst

/-- **C112** refuted: a line that raises an exception is not undone.  Its modes stay (`G91`, and the cycle as
motion mode), and so does a move of the same line. -/
theorem C112_refuted :
    (newNull.processStr (chars! "G91 G81 X1")).2 = some .attribute ∧
    (newNull.processStr (chars! "G91 G81 X1")).1.incremental = true ∧ newNull.incremental = false ∧
    ((newNull.processStr (chars! "G91 G81 X1")).1.mode.motion.map GCode.cls) = some .drillingCycle ∧
    ((newNull.processStr (chars! "G81 X1")).1.processStr (chars! "G0 X7 R2")).2 = some .attribute ∧
    ((newNull.processStr (chars! "G81 X1")).1.processStr (chars! "G0 X7 R2")).1.absPos.val .X = 7 ∧
    (newNull.processStr (chars! "G81 X1")).1.absPos.val .X = 0 := by decide +kernel

/-! ## Cases -/

example := C112_refused (m := newNull) (reader_null xyz).sound (by decide) (t := chars! "X1") (e := .invalidState)
  (m' := (newNull.processStr (chars! "X1")).1)
  (by rw [← show (newNull.processStr (chars! "X1")).2 = some .invalidState from by decide +kernel]) (.inr rfl)

example : True := by
  obtain ⟨l, hl⟩ := textError_none (t := "G17 G99 G81 X1 Z-1") (by decide +kernel)
  have h : newNull.processStr "G17 G99 G81 X1 Z-1".toList =
      ((newNull.processStr "G17 G99 G81 X1 Z-1".toList).1, some .type) := by
    rw [← show (newNull.processStr "G17 G99 G81 X1 Z-1".toList).2 = some .type from by decide +kernel]
  have h1 := C112_failed (reader_null xyz).sound (by decide) hl h (by decide)
  have h2 := C112_place (reader_null xyz).sound (by decide) h (fun l' hl' => .inl (by
    have hx : (match Line.ofText "G17 G99 G81 X1 Z-1".toList with
      | .ok l => l.block.modalParams | .error _ => []) = [] := by decide +kernel
    rw [hl'] at hx
    exact hx))
  trivial

end Pygcode
