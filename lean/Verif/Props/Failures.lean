import Verif.Lemmas.NearRead
import Verif.Props.NormExpand

/-!
# Which texts fail, and how (C84)

`Line(text)` and `machine.process_str(text)` (line.py:10-28, machine.py:516-518): for every text, which
exception is raised, or that none is.
-/

namespace Pygcode
open Props Machine Spec

/-! ## Texts -/

/-- A line break is followed by something other than blanks. -/
def InnerBreak (t : List Char) : Prop := ∃ a b, t = a ++ '\n' :: b ∧ ¬ Blank b

theorem innerBreak_cons (c : Char) (cs : List Char) :
    InnerBreak (c :: cs) ↔ (c = '\n' ∧ ¬ Blank cs) ∨ InnerBreak cs := by
  constructor
  · rintro ⟨a, b, h, hb⟩
    cases a with
    | nil =>
      rw [List.nil_append] at h
      cases h
      exact .inl ⟨rfl, hb⟩
    | cons x a =>
      rw [List.cons_append] at h
      cases h
      exact .inr ⟨a, b, rfl, hb⟩
  · rintro (⟨rfl, hb⟩ | ⟨a, b, rfl, hb⟩)
    · exact ⟨[], cs, rfl, hb⟩
    · exact ⟨c :: a, b, rfl, hb⟩

theorem innerBreak_blank {t : List Char} (h : t.all isSpace = true) : ¬ InnerBreak t := by
  rintro ⟨a, b, rfl, hb⟩
  exact hb (fun c hc => List.all_eq_true.1 h c (by simp [hc]))

theorem innerBreak_drop {cs : List Char} (h : (cs.dropWhile (· != '\n')).all isSpace = true) : ¬ InnerBreak cs := by
  rintro ⟨a, b, rfl, hb⟩
  apply hb
  intro c hc
  refine List.all_eq_true.1 h c ?_
  induction a with
  | nil => simp [hc]
  | cons x a ih =>
    rw [List.cons_append] at h ⊢
    by_cases hx : x = '\n'
    · subst hx; simp [hc]
    · rw [List.dropWhile_cons_of_pos (by simpa using hx)] at h ⊢
      exact ih h

theorem lineSplit_none (t : List Char) : lineSplit t = none ↔ InnerBreak t := by
  induction t with
  | nil =>
    refine iff_of_false (by simp [lineSplit]) ?_
    rintro ⟨a, b, h, -⟩
    simp at h
  | cons c cs ih =>
    unfold lineSplit
    by_cases h1 : c = '%' ∧ (cs.dropWhile (· != '\n')).all isSpace = true
    · rw [if_pos h1]
      refine iff_of_false (by simp) ?_
      rw [innerBreak_cons]
      rintro (⟨rfl, -⟩ | h)
      · exact absurd h1.1 (by decide)
      · exact innerBreak_drop h1.2 h
    rw [if_neg h1]
    by_cases h2 : (c :: cs).all isSpace = true
    · rw [if_pos h2]
      exact iff_of_false (by simp) (innerBreak_blank h2)
    rw [if_neg h2]
    by_cases h3 : c = '\n'
    · rw [if_pos h3]
      refine iff_of_true rfl ((innerBreak_cons c cs).2 (.inl ⟨h3, fun hb => h2 ?_⟩))
      subst h3
      rw [List.all_cons, List.all_eq_true.2 hb]
      rfl
    rw [if_neg h3, Option.map_eq_none_iff, ih, innerBreak_cons]
    simp [h3]

/-- Two gcodes of the text exclude each other: the same word, or the same modal group. -/
def Clash (ws : List Word) (role : ℕ → Role) : Prop :=
  ∃ i j a b c d, i < j ∧ role i = .gcode c ∧ role j = .gcode d ∧ ws[i]? = some a ∧ ws[j]? = some b ∧
    (a = b ∨ (c.group = d.group ∧ c.group ≠ none))

theorem conflict_clash (ws : List Word) (gs : List GCode) (un : List Word) (h : words2gcodes ws = .ok (gs, un))
    (role : ℕ → Role) (hr : IsGrouping ws role) : Conflict gs ↔ Clash ws role := by
  have h1 := (C17_result ws gs un h role hr).1
  have hp : ¬ Conflict gs ↔ (gcodesOf ws role).Pairwise (fun a b => a.2.1 ≠ b.2.1 ∧
      ∀ k, a.1.group = some k → b.1.group ≠ some k) := by
    rw [← h1, List.pairwise_map]
    constructor
    · exact pairwise_of_noConflict gs
    · intro hpw
      rw [← assert_conflict, (assertLoop_spec gs [] []).2]
      exact ⟨by simp, hpw⟩
  rw [← not_iff_not, hp]
  unfold gcodesOf
  rw [List.pairwise_filterMap, List.pairwise_iff_getElem]
  simp only [List.getElem_range, List.length_range]
  constructor
  · rintro hpw ⟨i, j, a, b, c, d, hij, hi, hj, ha, hb, hab⟩
    have hjl := (List.getElem?_eq_some_iff.1 hb).1
    have := hpw i j (by omega) hjl hij (c, a, wordsWhere ws (fun x => role x == .param i)) (by simp [hi, ha])
      (d, b, wordsWhere ws (fun x => role x == .param j)) (by simp [hj, hb])
    rcases hab with hab | ⟨hcd, hn⟩
    · exact this.1 hab
    · obtain ⟨k, hk⟩ := Option.ne_none_iff_exists'.1 hn
      exact this.2 k hk (hcd ▸ hk)
  · intro hn i j hi hj hij x hx y hy
    by_contra hc
    apply hn
    cases hri : role i with
    | param _ => simp [hri] at hx
    | unused => simp [hri] at hx
    | gcode c =>
      cases hrj : role j with
      | param _ => simp [hrj] at hy
      | unused => simp [hrj] at hy
      | gcode d =>
        have ha : ws[i]? = some ws[i] := List.getElem?_eq_getElem hi
        have hb : ws[j]? = some ws[j] := List.getElem?_eq_getElem hj
        simp only [hri, ha, Option.some.injEq] at hx
        simp only [hrj, hb, Option.some.injEq] at hy
        subst hx hy
        refine ⟨i, j, _, _, c, d, hij, hri, hrj, ha, hb, ?_⟩
        simp only [not_and_or, not_not, not_forall] at hc
        rcases hc with hc | ⟨k, hk, hk'⟩
        · exact .inl hc
        · exact .inr ⟨hk.trans hk'.symm, by rw [hk]; simp⟩

theorem block_error {t bs : List Char} {c : Option Comment} {mac : Option (List Char)} {e : Err}
    (h : Line.parts t = .ok (bs, c, mac)) : Line.ofText t = .error e ↔ Block.ofText bs = .error e := by
  unfold Line.ofText
  rw [h]
  simp only
  cases Block.ofText bs <;> simp

/-- **C84** (texts): which texts are no lines, and the exception.  A line break inside gives
`AttributeError`; a block text that is no sequence of words `GCodeWordStrError`; a letter given twice to
one gcode `GCodeParameterError`; gcodes excluding each other `AssertionError`.  All other texts are
lines. -/
theorem C84_text (t : List Char) (e : Err) : Line.ofText t = .error e ↔
    (e = .attribute ∧ InnerBreak t) ∨
    ∃ bs c mac, Line.parts t = .ok (bs, c, mac) ∧
      ((e = .wordStr ∧ ∀ ws, ¬ Lexes (cleanText bs) ws) ∨
       ∃ ws role, Lexes (cleanText bs) ws ∧ IsGrouping ws role ∧
        ((e = .param ∧ Repeated ws role) ∨ (e = .assertion ∧ ¬ Repeated ws role ∧ Clash ws role))) := by
  cases hs : lineSplit t with
  | none =>
    have hp : Line.parts t = .error .attribute := by unfold Line.parts; rw [hs]
    unfold Line.ofText
    rw [hp]
    simp only [Except.error.injEq]
    constructor
    · rintro rfl
      exact .inl ⟨rfl, (lineSplit_none t).1 hs⟩
    · rintro (⟨rfl, -⟩ | ⟨_, _, _, h, -⟩)
      · rfl
      · cases h
  | some q =>
    have hp : Line.parts t = .ok ((splitLine q.1).1, (splitLine q.1).2, q.2) := by unfold Line.parts; rw [hs]
    have hnb : ¬ InnerBreak t := fun h => by rw [(lineSplit_none t).2 h] at hs; cases hs
    rw [block_error hp, hp]
    simp only [Except.ok.injEq, Prod.mk.injEq]
    set bs := (splitLine q.1).1
    have hrhs : ((e = .attribute ∧ InnerBreak t) ∨ ∃ bs' c mac, (bs = bs' ∧ (splitLine q.1).2 = c ∧ q.2 = mac) ∧
        ((e = .wordStr ∧ ∀ ws, ¬ Lexes (cleanText bs') ws) ∨
         ∃ ws role, Lexes (cleanText bs') ws ∧ IsGrouping ws role ∧
          ((e = .param ∧ Repeated ws role) ∨ (e = .assertion ∧ ¬ Repeated ws role ∧ Clash ws role)))) ↔
        ((e = .wordStr ∧ ∀ ws, ¬ Lexes (cleanText bs) ws) ∨
         ∃ ws role, Lexes (cleanText bs) ws ∧ IsGrouping ws role ∧
          ((e = .param ∧ Repeated ws role) ∨ (e = .assertion ∧ ¬ Repeated ws role ∧ Clash ws role))) := by
      constructor
      · rintro (⟨-, h⟩ | ⟨_, _, _, ⟨rfl, -⟩, h⟩)
        · exact absurd h hnb
        · exact h
      · exact fun h => .inr ⟨bs, _, _, ⟨rfl, rfl, rfl⟩, h⟩
    rw [hrhs]
    cases hw : text2words (cleanText bs) with
    | error e' =>
      obtain ⟨rfl, hno⟩ := (C01_error_iff _ _).1 hw
      rw [(C19_other_errors bs true .wordStr).1 hw]
      constructor
      · rintro ⟨⟩
        exact .inl ⟨rfl, hno⟩
      · rintro (⟨rfl, -⟩ | ⟨ws, _, hl, -⟩)
        · rfl
        · exact absurd hl (hno ws)
    | ok ws =>
      have hl := (C01_ok_iff _ _).1 hw
      obtain ⟨role, hr, -⟩ := C17_rule ws
      cases hg : words2gcodes ws with
      | error e' =>
        obtain ⟨rfl, hrep⟩ := (C18_error_iff ws e' role hr).1 hg
        rw [(C19_other_errors bs true .param).2 ws hw hg]
        constructor
        · rintro ⟨⟩
          exact .inr ⟨ws, role, hl, hr, .inl ⟨rfl, hrep⟩⟩
        · rintro (⟨-, hno⟩ | ⟨ws', role', hl', hr', h⟩)
          · exact absurd hl (hno ws)
          · obtain rfl := C01_unambiguous _ _ _ hl hl'
            rcases h with ⟨rfl, -⟩ | ⟨-, hn, -⟩
            · rfl
            · exact absurd ((C18_error_iff ws .param role' hr').1 hg).2 hn
      | ok r =>
        obtain ⟨gs, un⟩ := r
        have hnr : ∀ role', IsGrouping ws role' → ¬ Repeated ws role' := by
          intro role' hr' hrep
          rw [(C18_error_iff ws .param role' hr').2 ⟨rfl, hrep⟩] at hg
          cases hg
        obtain ⟨hc1, hc2, -⟩ := C19_verify bs ws gs un hw hg
        by_cases hc : Conflict gs
        · rw [hc1 hc]
          constructor
          · rintro ⟨⟩
            exact .inr ⟨ws, role, hl, hr, .inr ⟨rfl, hnr role hr, (conflict_clash ws gs un hg role hr).1 hc⟩⟩
          · rintro (⟨-, hno⟩ | ⟨ws', role', hl', hr', h⟩)
            · exact absurd hl (hno ws)
            · obtain rfl := C01_unambiguous _ _ _ hl hl'
              rcases h with ⟨-, h⟩ | ⟨rfl, -⟩
              · exact absurd h (hnr role' hr')
              · rfl
        · rw [hc2 hc]
          refine iff_of_false (by simp) ?_
          rintro (⟨-, hno⟩ | ⟨ws', role', hl', hr', h⟩)
          · exact absurd hl (hno ws)
          · obtain rfl := C01_unambiguous _ _ _ hl hl'
            rcases h with ⟨-, h⟩ | ⟨-, -, h⟩
            · exact absurd h (hnr role' hr')
            · exact hc ((conflict_clash ws gs un hg role' hr').2 h)

/-! ## Execution -/

/-- Left-over words that the motion mode cannot take, on a machine that does not ignore them. -/
def Unusable (m : Machine) (b : Block) : Prop :=
  m.ignoreInvalid = false ∧ b.modalParams ≠ [] ∧
    ∀ g, m.mode.motion = some g → ∃ w ∈ b.modalParams, w.letter ∉ g.cls.params

/-- What is executed: the block's gcodes, and the motion mode with the left-over words; with the letters
for which a value is known. -/
inductive Executes (m : Machine) (b : Block) : Cls → (Char → Prop) → Prop
  | own {g} : g ∈ b.gcodes → Executes m b g.cls (fun l => ∃ w ∈ g.params, w.letter = l)
  | modal {x} : b.modalParams ≠ [] → m.mode.motion = some x →
      Executes m b x.cls (fun l => ∃ w ∈ x.params ++ b.modalParams, w.letter = l)

/-- The mode of group `k` while the block's motion is executed: the block's own, or the one from
before. -/
def InEffect (m : Machine) (b : Block) (k : ℕ) (c : Cls) : Prop :=
  (∃ g ∈ b.gcodes, g.cls.group = some k ∧ g.cls = c) ∨
    ((∀ g ∈ b.gcodes, g.cls.group ≠ some k) ∧ ∃ x, m.mode k = some x ∧ x.cls = c)

/-- Tables of the classes. -/
theorem failure_table (c : Cls) :
    (c.group = some 2 ∨ c.group = some 10 → c.order < 241) ∧
    (c.isSub .cannedCycle = true → c.proc = .canned ∧ c.order = 242 ∧ c.modalParams.contains 'L' = false ∧
      c.group = some 1) ∧
    (c.proc = .canned → c.isSub .cannedCycle = true) ∧
    (c.isSub .cannedCycleReturnToR = true ↔ c = .cannedCycleReturnToR) ∧
    (c.group = some 2 → (c.normalAxis.bind Axis.ofLetter = none ↔ c.normalAxis = none) ∧
      ∀ n, c.normalAxis.bind Axis.ofLetter = some n → n ∈ xyz) := by
  have := Cls.forall_of_all (p := fun c =>
    (!(c.group == some 2 || c.group == some 10) || decide (c.order < 241)) &&
    (!(c.isSub .cannedCycle) || (c.proc == .canned && c.order == 242 && !(c.modalParams.contains 'L') && c.group == some 1)) &&
    (!(c.proc == .canned) || c.isSub .cannedCycle) &&
    (c.isSub .cannedCycleReturnToR == (c == .cannedCycleReturnToR)) &&
    (!(c.group == some 2) || (((c.normalAxis.bind Axis.ofLetter).isNone == c.normalAxis.isNone) &&
      (c.normalAxis.bind Axis.ofLetter).all (fun n => decide (n ∈ xyz))))) (by decide +kernel) c
  simp only [Bool.and_eq_true, Bool.or_eq_true, Bool.not_eq_true', beq_iff_eq, Bool.or_eq_false_iff,
    beq_eq_false_iff_ne, decide_eq_true_eq, Option.all_eq_true] at this
  obtain ⟨⟨⟨⟨h1, h2⟩, h3⟩, h4⟩, h5⟩ := this
  refine ⟨by tauto, ?_, ?_, ?_, ?_⟩
  · intro h
    rcases h2 with h2 | h2
    · rw [h] at h2; cases h2
    · exact ⟨h2.1.1.1, h2.1.1.2, h2.1.2, h2.2⟩
  · intro h; exact h3.resolve_left (fun hn => hn h)
  · rw [h4, beq_iff_eq]
  · intro h
    obtain ⟨h5, h6⟩ := h5.resolve_left (fun hn => hn h)
    refine ⟨?_, h6⟩
    rw [← Option.isNone_iff_eq_none, h5, Option.isNone_iff_eq_none]

/-- Machine facts that execution keeps. -/
structure Fit (m : Machine) : Prop where
  sound : Sound m
  axes : xyz ⊆ m.axes

/-- A gcode as it comes from a text or a mode. -/
structure Fine (g : GCode) : Prop where
  gok : GOK g
  named : Named g
  count : 1 ≤ loops g

theorem process_axes (m : Machine) (hm : m.WF) (g : GCode) (hg : GOK g) : (m.process g).1.axes = m.axes :=
  by
  rw [← processAll_one]
  exact congrArg Prod.fst (processAll_frozen (gs := [g]) (by simpa using hg) hm)

theorem Fit.process {m : Machine} (h : Fit m) {g : GCode} (hg : Fine g) : Fit (m.process g).1 :=
  ⟨h.sound.process g hg.gok hg.named, by rw [process_axes m h.sound.wf g hg.gok]; exact h.axes⟩

/-- A canned cycle is executed, unless no plane is selected, or it is to return to R and cannot. -/
theorem cycle_step {m : Machine} (h : Fit m) {g : GCode} (hg : Fine g) (hc : g.cls.isSub .cannedCycle = true) :
    (m.mode 2 = none → (m.process g).2 = some .attribute) ∧
    (∀ pl, m.mode 2 = some pl →
      (ReturnsToR m.mode → pl.cls.normalAxis = none ∨ g.num? 'R' = none → (m.process g).2 = some .type) ∧
      ((ReturnsToR m.mode → pl.cls.normalAxis ≠ none ∧ g.num? 'R' ≠ none) → (m.process g).2 = none)) := by
  obtain ⟨hp, -, -, hgr⟩ := (failure_table g.cls).2.1 hc
  have hk : g.cls ≠ .cannedCycle := by
    intro hk
    have hn := hg.named
    unfold Named at hn
    rw [hk] at hn
    have := wordClass_letter hn
    rw [show classLetters .cannedCycle = [] from by decide +kernel] at this
    cases this
  obtain ⟨hL, hR⟩ := canned_params g.cls hp hk
  have hb := not_badSys h.sound.dict
  have hwf := h.sound.wf
  have hproc : m.process g =
      ({ m with mode := Function.update m.mode 1 (some (copyOf g)) } : Machine).effect g := by
    rw [process_eq m g hg.gok, setIn_motion m.mode g hgr, withMode_motion m h.sound.sync]
  set m₁ : Machine := { m with mode := Function.update m.mode 1 (some (copyOf g)) } with hm₁
  have hm₁wf : m₁.WF := ⟨hwf.abs, hwf.absWF, hwf.sys, hwf.off, hwf.offWF, hwf.lo, hwf.hi⟩
  have hget : g.get 'R' = .ok ((g.param 'R').map Word.val) := by unfold GCode.get; rw [if_pos hR]
  have succ : ∀ cs : List (Axis × ℚ), (cs.map Prod.fst).Nodup → (∀ c ∈ cs, c.1 ∈ m.axes) →
      (m₁.moves (cs.map (fun c => (c.1, some c.2))) (loops g)).2 = none := by
    intro cs hnd hcs
    obtain ⟨k, hk'⟩ : ∃ k, loops g = k + 1 := ⟨loops g - 1, by have := hg.count; omega⟩
    rw [hk']
    cases hi : m₁.incremental with
    | false => rw [moves_abs m₁ hm₁wf hb hi cs hnd hcs k]
    | true =>
      obtain ⟨m', he, -⟩ := moves_inc cs hnd (k + 1) m₁ hm₁wf hb hi hcs
      rw [he]
  have heff : ∀ cs, m₁.cannedCoords g = .ok cs → m.process g = m₁.moves cs (loops g) := by
    intro cs hcs
    rw [hproc]
    unfold effect
    rw [hp]
    simp only [hcs, loopCount_eq g hL]
  refine ⟨?_, ?_⟩
  · intro h2
    rw [hproc]
    unfold effect cannedCoords
    rw [hp]
    have : m₁.mode.plane = none := h2
    simp only [this]
  · intro pl hpl
    have hpl' : m₁.mode.plane = some pl := hpl
    have hgrp : pl.cls.group = some 2 := (h.sound.ok 2 pl hpl).1
    obtain ⟨t1, t2⟩ := (failure_table pl.cls).2.2.2.2 hgrp
    cases hn : pl.cls.normalAxis.bind Axis.ofLetter with
    | none =>
      have hn' := t1.1 hn
      refine ⟨?_, ?_⟩
      · rintro ⟨r, hr, hsub⟩ -
        have hr' : m₁.mode.cannedReturn = some r := hr
        rw [hproc]
        unfold effect cannedCoords
        rw [hp]
        simp only [hpl', hr', hsub, if_true, hget, hn]
      · intro hno
        have hnr : ¬ ReturnsToR m.mode := fun hr => (hno hr).1 hn'
        have : m₁.cannedCoords g = .ok ((coords m.axes g).map (fun c => (c.1, some c.2))) := by
          unfold cannedCoords
          rw [hpl']
          simp only [hn]
          cases hcr : m₁.mode.cannedReturn with
          | none => rfl
          | some r =>
            have : r.cls.isSub .cannedCycleReturnToR = false := by
              rw [← Bool.not_eq_true]
              exact fun hs => hnr ⟨r, hcr, hs⟩
            simp only [this, Bool.false_eq_true, if_false]
            rfl
        rw [heff _ this]
        exact succ _ (coords_nodup m.axes g hg.gok) (coords_axes m.axes g)
    | some n =>
      have hn' : pl.cls.normalAxis ≠ none := by
        intro h0
        rw [t1.2 h0] at hn
        cases hn
      have hax : n ∈ m.axes := h.axes (t2 n hn)
      refine ⟨?_, ?_⟩
      · intro hr hor
        exact (C45_missing_R m hwf hb h.sound.sync g hg.gok hp hk hg.count pl hpl n hn hax hr
          (hor.resolve_left hn')).1
      · intro hyes
        by_cases hr : ReturnsToR m.mode
        · obtain ⟨cs, c1, c2, -, c4⟩ := canned_process m h.sound.sync g hg.gok hp hk pl hpl n hn hax (g.num? 'R')
            (.inr ⟨hr, rfl, (hyes hr).2⟩)
          rw [c4]
          exact succ cs c1 c2
        · obtain ⟨cs, c1, c2, -, c4⟩ := canned_process m h.sound.sync g hg.gok hp hk pl hpl n hn hax none
            (.inl ⟨hr, rfl⟩)
          rw [c4]
          exact succ cs c1 c2

theorem plain_step {m : Machine} (h : Fit m) {g : GCode} (hg : Fine g) (hc : g.cls.isSub .cannedCycle = false) :
    (m.process g).2 = none := by
  rw [process_after m h.sound.wf h.sound.dict g hg.gok hc]

/-- Slots other than that of motion. -/
theorem stepMode_slot (md : Mode) (g : GCode) (k : ℕ) (hk : k ≠ 1) : stepMode md g k = setIn md g k := by
  unfold stepMode
  split_ifs
  · exact Function.update_of_ne hk _ _
  · rfl

theorem setIn_slot (md : Mode) (g : GCode) (k : ℕ) (h : g.cls.group ≠ some k) : setIn md g k = md k := by
  unfold setIn
  cases hg : g.cls.group with
  | none => rfl
  | some j =>
    simp only
    rw [Function.update_of_ne]
    rintro rfl
    exact h hg

/-- Gcodes that leave plane and return mode alone. -/
theorem run_late (gs : List GCode) (hg : ∀ g ∈ gs, Fine g ∧ g.cls.group ≠ some 2 ∧ g.cls.group ≠ some 10) :
    ∀ {m : Machine}, Fit m →
    (m.mode 2 = none → (∃ g ∈ gs, g.cls.isSub .cannedCycle = true) → (m.processAll gs).2 = some .attribute) ∧
    (∀ pl, m.mode 2 = some pl → ReturnsToR m.mode →
      (∃ g ∈ gs, g.cls.isSub .cannedCycle = true ∧ (pl.cls.normalAxis = none ∨ g.num? 'R' = none)) →
      (m.processAll gs).2 = some .type) ∧
    ((∀ g ∈ gs, g.cls.isSub .cannedCycle = true → ∃ pl, m.mode 2 = some pl ∧
      (ReturnsToR m.mode → pl.cls.normalAxis ≠ none ∧ g.num? 'R' ≠ none)) → (m.processAll gs).2 = none) := by
  induction gs with
  | nil => intro m _; simp [processAll]
  | cons g gs ih =>
    intro m hm
    obtain ⟨hgf, hg2, hg10⟩ := hg g List.mem_cons_self
    have hfit := hm.process hgf
    have hmd := process_mode m hm.sound.wf g hgf.gok
    have h2 : (m.process g).1.mode 2 = m.mode 2 := by
      rw [hmd, stepMode_slot _ _ _ (by decide), setIn_slot _ _ _ hg2]
    have h10 : (m.process g).1.mode 10 = m.mode 10 := by
      rw [hmd, stepMode_slot _ _ _ (by decide), setIn_slot _ _ _ hg10]
    have hret : ReturnsToR (m.process g).1.mode ↔ ReturnsToR m.mode := by
      unfold ReturnsToR Mode.cannedReturn
      rw [show ((m.process g).1.mode 10) = m.mode 10 from h10]
    obtain ⟨i1, i2, i3⟩ := ih (fun x hx => hg x (List.mem_cons_of_mem _ hx)) hfit
    rw [h2] at i1
    rw [h2, hret] at i2 i3
    have next : (m.process g).2 = none → (m.processAll (g :: gs)).2 = ((m.process g).1.processAll gs).2 := by
      intro h0
      rw [processAll]
      unfold andThen
      generalize m.process g = r at h0
      obtain ⟨m', e⟩ := r
      subst h0
      rfl
    have stop : ∀ e, (m.process g).2 = some e → (m.processAll (g :: gs)).2 = some e := by
      intro e h0
      unfold processAll andThen
      generalize m.process g = r at h0
      obtain ⟨m', e'⟩ := r
      subst h0
      rfl
    cases hc : g.cls.isSub .cannedCycle with
    | false =>
      rw [next (plain_step hm hgf hc)]
      refine ⟨?_, ?_, ?_⟩
      · rintro hp ⟨x, hx, hxc⟩
        rcases List.mem_cons.1 hx with rfl | hx
        · rw [hc] at hxc; cases hxc
        · exact i1 hp ⟨x, hx, hxc⟩
      · rintro pl hp hr ⟨x, hx, hxc, hor⟩
        rcases List.mem_cons.1 hx with rfl | hx
        · rw [hc] at hxc; cases hxc
        · exact i2 pl hp hr ⟨x, hx, hxc, hor⟩
      · exact fun hall => i3 (fun x hx => hall x (List.mem_cons_of_mem _ hx))
    | true =>
      obtain ⟨c1, c2⟩ := cycle_step hm hgf hc
      refine ⟨?_, ?_, ?_⟩
      · intro hp _
        exact stop _ (c1 hp)
      · rintro pl hp hr ⟨x, hx, hxc, hor⟩
        by_cases hbad : pl.cls.normalAxis = none ∨ g.num? 'R' = none
        · exact stop _ ((c2 pl hp).1 hr hbad)
        · rw [next ((c2 pl hp).2 (fun _ => not_or.1 hbad))]
          rcases List.mem_cons.1 hx with rfl | hx
          · exact absurd hor hbad
          · exact i2 pl hp hr ⟨x, hx, hxc, hor⟩
      · intro hall
        obtain ⟨pl, hp, hr⟩ := hall g List.mem_cons_self hc
        rw [next ((c2 pl hp).2 hr)]
        exact i3 (fun x hx => hall x (List.mem_cons_of_mem _ hx))

/-- Gcodes that are no canned cycles. -/
theorem run_early (gs : List GCode) (hg : ∀ g ∈ gs, Fine g ∧ g.cls.isSub .cannedCycle = false) :
    ∀ {m : Machine}, Fit m → ∃ m', m.processAll gs = (m', none) ∧ Fit m' := by
  induction gs with
  | nil => exact fun {m} h => ⟨m, rfl, h⟩
  | cons g gs ih =>
    intro m hm
    obtain ⟨hgf, hc⟩ := hg g List.mem_cons_self
    have h0 := plain_step hm hgf hc
    obtain ⟨m', h1, h2⟩ := ih (fun x hx => hg x (List.mem_cons_of_mem _ hx)) (hm.process hgf)
    refine ⟨m', ?_, h2⟩
    unfold processAll andThen
    generalize m.process g = r at h0 h1
    obtain ⟨m'', e⟩ := r
    subst h0
    exact h1

/-! ## From the text -/

/-- Values of `L` words in texts are natural numbers. -/
theorem lexed_count {t : List Char} {ws : List Word} (h : Lexes t ws) :
    ∀ w ∈ ws, w.letter = 'L' → ∃ n : ℕ, w.val = .num n := by
  induction h with
  | nil _ => simp
  | @cons junk c s v rest k x ws hj hc hk hv hx hl ih =>
    intro w hw hL
    rcases List.mem_cons.1 hw with rfl | hw
    · simp only at hL
      rw [hL] at hk
      cases hk
      obtain ⟨u, i, rfl, hu, hne, hi⟩ := hv.2.1
      have h1 := (denotesVal_iff (k := .posint) hv.2.1).1 hx
      have h2 := numText_eval (neg := false) (dot := false) hu hi (f := []) (by simp [Digits]) (fun _ => rfl)
      refine ⟨digitsVal i, ?_⟩
      rw [h1]
      simp only [mkVal, Bool.false_eq_true, if_false, List.append_nil] at h2 ⊢
      rw [h2]
      simp [digitsVal]
    · exact ih w hw hL

theorem count_loops {g : GCode} (h : ∀ w ∈ g.params, w.letter = 'L' → ∃ n : ℕ, w.val = .num n) : 1 ≤ loops g := by
  unfold loops GCode.num? GCode.param
  cases hf : g.params.find? (fun w => w.letter == 'L') with
  | none => simp
  | some w =>
    obtain ⟨n, hn⟩ := h w (List.mem_of_find?_eq_some hf) (by simpa using List.find?_some hf)
    simp only [Option.map_some, Word.num, hn]
    split_ifs with h0
    · exact le_refl 1
    · have : (0 : ℚ) < n := not_le.1 h0
      have hn1 : 1 ≤ n := by exact_mod_cast this
      rw [show (truncQ (n : ℚ)) = n from by simp [truncQ]]
      exact_mod_cast hn1

theorem line_lexed {t : List Char} {l : Line} (h : Line.ofText t = .ok l) : ∃ s, Lexes s l.block.words := by
  unfold Line.ofText at h
  cases h1 : Line.parts t with
  | error e => rw [h1] at h; cases h
  | ok r =>
    obtain ⟨bs, c, mac⟩ := r
    rw [h1] at h; simp only at h
    cases h2 : Block.ofText bs with
    | error e => rw [h2] at h; cases h
    | ok b =>
      rw [h2] at h
      cases h
      refine ⟨cleanText bs, (C01_ok_iff _ _).1 ?_⟩
      unfold Block.ofText at h2
      cases h3 : text2words (cleanText bs) with
      | error e => rw [h3] at h2; cases h2
      | ok ws =>
        rw [h3] at h2
        simp only at h2
        cases h4 : words2gcodes ws with
        | error e => rw [h4] at h2; cases h2
        | ok p =>
          rw [h4] at h2
          simp only [if_true] at h2
          cases h5 : Block.assertLoop [] [] p.1 with
          | error e => rw [h5] at h2; cases h2
          | ok _ => rw [h5] at h2; cases h2; rfl

/-- Table: `L` is no modal parameter of a motion. -/
theorem motion_table (c : Cls) (h : c.group = some 1) : 'L' ∉ c.modalParams := by
  have := Cls.forall_of_all (p := fun c => !(c.group == some 1) || !(c.modalParams.contains 'L')) (by decide +kernel) c
  simpa [h] using this

/-- The gcodes executed, early ones first. -/
theorem sorted_split (gs : List GCode) (h : gs.Pairwise (fun a b => a.cls.order ≤ b.cls.order)) :
    ∃ A C, gs = A ++ C ∧ (∀ g ∈ A, g.cls.order < 241) ∧ ∀ g ∈ C, 241 ≤ g.cls.order := by
  induction gs with
  | nil => exact ⟨[], [], rfl, by simp, by simp⟩
  | cons g gs ih =>
    obtain ⟨h1, h2⟩ := List.pairwise_cons.1 h
    by_cases hg : g.cls.order < 241
    · obtain ⟨A, C, rfl, hA, hC⟩ := ih h2
      exact ⟨g :: A, C, rfl, by simpa [hg] using hA, hC⟩
    · refine ⟨[], g :: gs, rfl, by simp, ?_⟩
      intro x hx
      rcases List.mem_cons.1 hx with rfl | hx
      · omega
      · have := h1 x hx; omega

theorem early_slot (A : List GCode) (md : Mode) (k : ℕ) (hk : k ≠ 1) : (A.foldl stepMode md) k = (A.foldl setIn md) k := by
  have : ∀ A : List GCode, ∀ md md' : Mode, (∀ j, j ≠ 1 → md j = md' j) →
      ∀ j, j ≠ 1 → (A.foldl stepMode md) j = (A.foldl setIn md') j := by
    intro A
    induction A with
    | nil => exact fun _ _ h => h
    | cons g A ih =>
      intro md md' h
      apply ih
      intro j hj
      rw [stepMode_slot _ _ _ hj]
      unfold setIn
      cases g.cls.group with
      | none => exact h j hj
      | some i =>
        simp only
        by_cases hji : j = i
        · subst hji; rw [Function.update_self, Function.update_self]
        · rw [Function.update_of_ne hji, Function.update_of_ne hji]; exact h j hj
  exact this A md md (fun _ _ => rfl) k hk

/-- **C84** (execution): a text that is a line is executed, except that
`MachineInvalidState` is raised for left-over words the mode cannot take,
`AttributeError` for a canned cycle with no plane selected, and
`TypeError` for a canned cycle that is to return to R (G99) with no R, or in a plane without a normal axis
(G17.1, G18.1, G19.1). -/
theorem C84_machine {m : Machine} (hm : Sound m) (hax : xyz ⊆ m.axes) {t : List Char} {l : Line}
    (hl : Line.ofText t = .ok l) (e : Err) :
    (m.processStr t).2 = some e ↔
      (e = .invalidState ∧ Unusable m l.block) ∨
      (¬ Unusable m l.block ∧
        ((e = .attribute ∧ (∃ c given, Executes m l.block c given ∧ c.isSub .cannedCycle = true) ∧
            ∀ p, ¬ InEffect m l.block 2 p) ∨
         (e = .type ∧ InEffect m l.block 10 .cannedCycleReturnToR ∧
            ∃ c given p, Executes m l.block c given ∧ c.isSub .cannedCycle = true ∧ InEffect m l.block 2 p ∧
              (p.normalAxis = none ∨ ¬ given 'R')))) := by
  have hb := line_block_ok hl
  obtain ⟨s, hlex⟩ := line_lexed hl
  have hcount := lexed_count hlex
  set b := l.block with hbdef
  have hstr : m.processStr t = m.processBlock b := by unfold processStr; rw [hl]
  rw [hstr]
  have hfineB : ∀ g ∈ b.gcodes, Fine g := fun g hg => ⟨hb.ok g hg, hb.cls g hg, count_loops (fun w hw =>
    hcount w (hb.perm.mem_iff.1 (List.mem_append_left _ (List.mem_flatMap.2 ⟨g, hg, List.mem_cons_of_mem _ hw⟩))))⟩
  by_cases hU : Unusable m b
  · have hmo : m.modalGcode b.modalParams = .error .invalidState := by
      obtain ⟨hi, hne, hall⟩ := hU
      cases hx : m.mode.motion with
      | none =>
        unfold modalGcode
        rw [if_neg hne, hx]
        simp [hi]
      | some x =>
        rw [modalGcode_closed m x hx (hm.ok 1 x hx).2.1 (hm.named 1 x hx) _ hne hb.unused, if_pos ⟨hall x hx, hi⟩]
    have : m.processBlock b = (m, some .invalidState) := by
      unfold processBlock processGcodes
      rw [hmo]
    rw [this]
    simp only [Option.some.injEq]
    constructor
    · rintro rfl
      exact .inl ⟨rfl, hU⟩
    · rintro (⟨rfl, -⟩ | ⟨h, -⟩)
      · rfl
      · exact absurd hU h
  -- the modal gcode
  obtain ⟨og, hog, hog1, hog2⟩ : ∃ og, m.modalGcode b.modalParams = .ok og ∧
      (∀ g, og = some g → ∃ x, b.modalParams ≠ [] ∧ m.mode.motion = some x ∧ g = modalOf x b.modalParams) ∧
      (∀ x, b.modalParams ≠ [] → m.mode.motion = some x → og = some (modalOf x b.modalParams)) := by
    by_cases hne : b.modalParams = []
    · exact ⟨none, by rw [hne]; rfl, by simp, fun x h => absurd hne h⟩
    · cases hx : m.mode.motion with
      | none =>
        refine ⟨none, ?_, by simp, by simp⟩
        unfold modalGcode
        rw [if_neg hne, hx]
        simp only
        rw [if_pos]
        by_contra hi
        exact hU ⟨by simpa using hi, hne, by simp [hx]⟩
      | some x =>
        refine ⟨some (modalOf x b.modalParams), ?_, ?_, ?_⟩
        · rw [modalGcode_closed m x hx (hm.ok 1 x hx).2.1 (hm.named 1 x hx) _ hne hb.unused, if_neg]
          rintro ⟨h1, h2⟩
          refine hU ⟨h2, hne, ?_⟩
          intro g hg
          rw [hx] at hg
          cases hg
          exact h1
        · rintro g ⟨⟩
          exact ⟨x, hne, rfl, rfl⟩
        · rintro y - ⟨⟩
          rfl
  have hproc : m.processBlock b = m.processAll (execSort (b.gcodes ++ og.toList)) := by
    unfold processBlock processGcodes
    rw [hog]
  rw [hproc]
  have hperm : (execSort (b.gcodes ++ og.toList)).Perm (b.gcodes ++ og.toList) := List.perm_insertionSort _ _
  have hsorted : (execSort (b.gcodes ++ og.toList)).Pairwise (fun a b => a.cls.order ≤ b.cls.order) :=
    (execSort_stable _).2.1
  obtain ⟨A, C, hAC, hA, hC⟩ := sorted_split _ hsorted
  set gs := execSort (b.gcodes ++ og.toList) with hgs
  have hfine : ∀ g ∈ gs, Fine g := by
    intro g hg
    rcases List.mem_append.1 (hperm.mem_iff.1 hg) with hg | hg
    · exact hfineB g hg
    · obtain ⟨x, hne, hx, rfl⟩ := hog1 g (by simpa using hg)
      refine ⟨modalOf_gok x (hm.ok 1 x hx).2.1 _, hm.named 1 x hx, count_loops ?_⟩
      intro w hw hL
      rcases override_mem _ _ _ (List.mem_filter.1 hw).1 with h | h
      · have h1 := (hm.ok 1 x hx).2.2 w h
        rw [hL] at h1
        exact absurd h1 (motion_table x.cls (hm.ok 1 x hx).1)
      · exact hcount w (hb.perm.mem_iff.1 (List.mem_append_right _ h)) hL
  have hgroup : ∀ k, k ≠ 1 → ∀ g ∈ gs, g.cls.group = some k → g ∈ b.gcodes := by
    intro k hk g hg hgr
    rcases List.mem_append.1 (hperm.mem_iff.1 hg) with hg | hg
    · exact hg
    · obtain ⟨x, -, hx, rfl⟩ := hog1 g (by simpa using hg)
      have := (hm.ok 1 x hx).1
      rw [show (modalOf x b.modalParams).cls = x.cls from rfl, this] at hgr
      cases hgr
      exact absurd rfl hk
  obtain ⟨mA, hrunA, hfitA⟩ := run_early A (fun g hg => ⟨hfine g (by rw [hAC]; simp [hg]), by
    rw [← Bool.not_eq_true]
    intro hc
    have := ((failure_table g.cls).2.1 hc).2.1
    have := hA g hg
    omega⟩) ⟨hm, hax⟩
  have hCg : ∀ g ∈ C, g.cls.group ≠ some 2 ∧ g.cls.group ≠ some 10 := by
    intro g hg
    have h1 := (failure_table g.cls).1
    have h2 := hC g hg
    exact ⟨fun h => by have := h1 (.inl h); omega, fun h => by have := h1 (.inr h); omega⟩
  have hmodeA := all_mode A (fun g hg => (hfine g (by rw [hAC]; simp [hg])).gok) m hm.wf mA hrunA
  have hslot : ∀ k, k = 2 ∨ k = 10 → ∀ c, InEffect m b k c ↔ ∃ x, mA.mode k = some x ∧ x.cls = c := by
    intro k hk c
    have hk1 : k ≠ 1 := by omega
    rw [hmodeA, early_slot A m.mode k hk1, foldl_setIn]
    have hmemA : ∀ g, g ∈ A.filter (fun g => decide (g.cls.group = some k)) ↔ g ∈ b.gcodes ∧ g.cls.group = some k := by
      intro g
      rw [List.mem_filter, decide_eq_true_eq]
      constructor
      · rintro ⟨h1, h2⟩
        exact ⟨hgroup k hk1 g (by rw [hAC]; simp [h1]) h2, h2⟩
      · rintro ⟨h1, h2⟩
        refine ⟨?_, h2⟩
        have : g ∈ gs := hperm.mem_iff.2 (List.mem_append_left _ h1)
        rw [hAC] at this
        rcases List.mem_append.1 this with h | h
        · exact h
        · rcases hk with rfl | rfl
          · exact absurd h2 (hCg g h).1
          · exact absurd h2 (hCg g h).2
    cases hlast : (A.filter (fun g => decide (g.cls.group = some k))).getLast? with
    | none =>
      have hnil := List.getLast?_eq_none_iff.1 hlast
      have hno : ∀ g ∈ b.gcodes, g.cls.group ≠ some k := by
        intro g hg hgr
        have := (hmemA g).2 ⟨hg, hgr⟩
        rw [hnil] at this
        cases this
      constructor
      · rintro (⟨g, hg, hgr, -⟩ | ⟨-, h⟩)
        · exact absurd hgr (hno g hg)
        · exact h
      · exact fun h => .inr ⟨hno, h⟩
    | some g =>
      obtain ⟨hg, hgr⟩ := (hmemA g).1 (List.mem_of_getLast? hlast)
      simp only [Option.some.injEq, exists_eq_left']
      constructor
      · rintro (⟨g', hg', hgr', rfl⟩ | ⟨hno, -⟩)
        · by_cases heq : g = g'
          · subst heq; rfl
          · have hpw := pairwise_of_noConflict _ hb.noConflict
            haveI : Std.Symm NC := ⟨fun _ _ h => NC.symm h⟩
            have := hpw.forall hg hg' heq
            exact absurd hgr' (this.2 k hgr)
        · exact absurd hgr (hno g hg)
      · intro h
        exact .inl ⟨g, hg, hgr, h⟩
  have hret : InEffect m b 10 .cannedCycleReturnToR ↔ ReturnsToR mA.mode := by
    rw [hslot 10 (.inr rfl)]
    constructor
    · rintro ⟨x, hx, hc⟩
      exact ⟨x, hx, ((failure_table x.cls).2.2.2.1).2 hc⟩
    · rintro ⟨x, hx, hc⟩
      exact ⟨x, hx, ((failure_table x.cls).2.2.2.1).1 hc⟩
  have hall : (m.processAll gs).2 = (mA.processAll C).2 := by
    rw [hAC, processAll_append, hrunA]
    rfl
  rw [hall]
  have hexec : ∀ P : Cls → Prop → Prop, (∃ c given, Executes m b c given ∧ c.isSub .cannedCycle = true ∧ P c (given 'R')) ↔
      ∃ g ∈ C, g.cls.isSub .cannedCycle = true ∧ P g.cls (g.num? 'R' ≠ none) := by
    intro P
    have hR : ∀ g : GCode, (g.num? 'R' ≠ none) = ∃ w ∈ g.params, w.letter = 'R' := by
      intro g
      unfold GCode.num? GCode.param
      rw [ne_eq, Option.map_eq_none_iff, List.find?_eq_none]
      simp
    have hin : ∀ g, g.cls.isSub .cannedCycle = true → (g ∈ C ↔ g ∈ gs) := by
      intro g hc
      rw [hAC, List.mem_append]
      refine ⟨.inr, fun h => h.resolve_left (fun h => ?_)⟩
      have := ((failure_table g.cls).2.1 hc).2.1
      have := hA g h
      omega
    have hmodal : ∀ x, m.mode.motion = some x → x.cls.isSub .cannedCycle = true →
        ((modalOf x b.modalParams).num? 'R' ≠ none) = ∃ w ∈ x.params ++ b.modalParams, w.letter = 'R' := by
      intro x hx hc
      have hp := ((failure_table x.cls).2.1 hc).1
      have hk : x.cls ≠ .cannedCycle := by
        intro hk
        have hn := hm.named 1 x hx
        unfold Named at hn
        rw [hk] at hn
        have := wordClass_letter hn
        rw [show classLetters .cannedCycle = [] from by decide +kernel] at this
        cases this
      have hRp : 'R' ∈ x.cls.params := by simpa using (canned_params x.cls hp hk).2
      unfold GCode.num?
      rw [ne_eq, Option.map_eq_none_iff, modalOf_param x _ 'R' hRp]
      unfold GCode.param
      rw [Option.or_eq_none_iff, List.getLast?_eq_none_iff, List.filter_eq_nil_iff, List.find?_eq_none]
      simp only [beq_iff_eq, List.mem_append, eq_iff_iff]
      constructor
      · intro h
        by_contra hno
        push Not at hno
        exact h ⟨fun w hw => hno w (.inr hw), fun w hw => hno w (.inl hw)⟩
      · rintro ⟨w, hw, hl⟩ ⟨h1, h2⟩
        rcases hw with hw | hw
        · exact h2 w hw hl
        · exact h1 w hw hl
    constructor
    · rintro ⟨c, given, hx, hc, hP⟩
      cases hx with
      | @own g hg =>
        refine ⟨g, (hin g hc).2 (hperm.mem_iff.2 (List.mem_append_left _ hg)), hc, ?_⟩
        rw [hR]; exact hP
      | @modal x hne hx =>
        refine ⟨modalOf x b.modalParams, (hin (modalOf x b.modalParams) hc).2 (hperm.mem_iff.2 (List.mem_append_right _ ?_)), hc, ?_⟩
        · rw [hog2 x hne hx]; simp
        · rw [hmodal x hx hc]; exact hP
    · rintro ⟨g, hg, hc, hP⟩
      rcases List.mem_append.1 (hperm.mem_iff.1 ((hin g hc).1 hg)) with hg | hg
      · exact ⟨_, _, .own hg, hc, by rw [hR] at hP; exact hP⟩
      · obtain ⟨x, hne, hx, rfl⟩ := hog1 g (by simpa using hg)
        exact ⟨_, _, .modal hne hx, hc, by rw [hmodal x hx hc] at hP; exact hP⟩
  obtain ⟨r1, r2, r3⟩ := run_late C (fun g hg => ⟨hfine g (by rw [hAC]; simp [hg]), hCg g hg⟩) hfitA
  have hcyc := hexec (fun _ _ => True)
  simp only [and_true] at hcyc
  rw [hcyc, hret]
  simp only [hU, and_false, false_or, not_false_eq_true, true_and]
  by_cases hnone : ∃ g ∈ C, g.cls.isSub .cannedCycle = true
  · cases hpl : mA.mode 2 with
    | none =>
      have hno : ∀ p, ¬ InEffect m b 2 p := by
        intro p hp
        obtain ⟨x, hx, -⟩ := (hslot 2 (.inl rfl) p).1 hp
        rw [hpl] at hx; cases hx
      rw [r1 hpl hnone]
      constructor
      · rintro ⟨⟩
        exact .inl ⟨rfl, hnone, hno⟩
      · rintro (⟨rfl, -⟩ | ⟨-, -, _, _, p, -, -, hp, -⟩)
        · rfl
        · exact absurd hp (hno p)
    | some pl =>
      have hyes : ∀ p, InEffect m b 2 p ↔ p = pl.cls := by
        intro p
        rw [hslot 2 (.inl rfl), hpl]
        simp [eq_comm]
      have hbad := hexec (fun _ r => pl.cls.normalAxis = none ∨ ¬ r)
      have hbad' : (∃ c given p, Executes m b c given ∧ c.isSub .cannedCycle = true ∧ InEffect m b 2 p ∧
          (p.normalAxis = none ∨ ¬ given 'R')) ↔
          ∃ g ∈ C, g.cls.isSub .cannedCycle = true ∧ (pl.cls.normalAxis = none ∨ g.num? 'R' = none) := by
        constructor
        · rintro ⟨c, given, p, h1, h2, h3, h4⟩
          rw [(hyes p).1 h3] at h4
          obtain ⟨g, hg, hc, h⟩ := hbad.1 ⟨c, given, h1, h2, h4⟩
          exact ⟨g, hg, hc, by simpa only [ne_eq, not_not] using h⟩
        · rintro ⟨g, hg, hc, h⟩
          obtain ⟨c, given, h1, h2, h3⟩ := hbad.2 ⟨g, hg, hc, by simpa only [ne_eq, not_not] using h⟩
          exact ⟨c, given, pl.cls, h1, h2, (hyes _).2 rfl, h3⟩
      rw [hbad']
      by_cases hr : ReturnsToR mA.mode ∧ ∃ g ∈ C, g.cls.isSub .cannedCycle = true ∧
          (pl.cls.normalAxis = none ∨ g.num? 'R' = none)
      · rw [r2 pl hpl hr.1 hr.2]
        constructor
        · rintro ⟨⟩
          exact .inr ⟨rfl, hr⟩
        · rintro (⟨-, -, h⟩ | ⟨rfl, -⟩)
          · exact absurd ((hyes pl.cls).2 rfl) (h _)
          · rfl
      · rw [r3 (fun g hg hc => ⟨pl, hpl, fun hrr => by
          by_contra hn
          exact hr ⟨hrr, g, hg, hc, by
            by_contra hn'
            exact hn (not_or.1 hn')⟩⟩)]
        refine iff_of_false (by simp) ?_
        rintro (⟨-, -, h⟩ | ⟨-, h⟩)
        · exact absurd ((hyes pl.cls).2 rfl) (h _)
        · exact hr h
  · rw [r3 (fun g hg hc => absurd ⟨g, hg, hc⟩ hnone)]
    refine iff_of_false (by simp) ?_
    rintro (⟨-, h, -⟩ | ⟨-, -, c, given, p, h1, h2, -⟩)
    · exact hnone h
    · exact hnone (hcyc.1 ⟨c, given, h1, h2⟩)

/-- **C84** (refusal): a text that is no line raises its exception and leaves the machine as it is. -/
theorem C84_refused (m : Machine) (t : List Char) (e : Err) (h : Line.ofText t = .error e) :
    m.processStr t = (m, some e) := by
  unfold processStr
  rw [h]

/-- **C84** (kinds): `process_str` raises nothing but these six exceptions. -/
theorem C84_kinds {m : Machine} (hm : Sound m) (hax : xyz ⊆ m.axes) (t : List Char) (e : Err)
    (h : (m.processStr t).2 = some e) :
    e = .wordStr ∨ e = .param ∨ e = .assertion ∨ e = .attribute ∨ e = .invalidState ∨ e = .type := by
  cases hl : Line.ofText t with
  | error e' =>
    rw [C84_refused m t e' hl] at h
    cases h
    rcases (C84_text t e).1 hl with ⟨h, -⟩ | ⟨_, _, _, -, ⟨h, -⟩ | ⟨_, _, -, -, ⟨h, -⟩ | ⟨h, -⟩⟩⟩ <;> simp [h]
  | ok l =>
    rcases (C84_machine hm hax hl e).1 h with ⟨h, -⟩ | ⟨-, ⟨h, -⟩ | ⟨h, -⟩⟩ <;> simp [h]

/-! ## Cases -/

/-- The error of a text. -/
def textError (t : String) : Option Err := match Line.ofText t.toList with | .ok _ => none | .error e => some e

theorem textError_some {t : String} {e : Err} (h : textError t = some e) : Line.ofText t.toList = .error e := by
  unfold textError at h
  split at h
  · cases h
  · cases h; assumption

theorem textError_none {t : String} (h : textError t = none) : ∃ l, Line.ofText t.toList = .ok l := by
  unfold textError at h
  split at h
  · exact ⟨_, by assumption⟩
  · cases h

example : textError "G1\nX1" = some .attribute ∧ textError "G1 X1.2.3" = some .wordStr ∧
    textError "G1 X1 X2" = some .param ∧ textError "G1 G0 X1" = some .assertion ∧ textError "G90 G90" = some .assertion ∧
    textError "G17 G1 X1\n " = none ∧ textError "X1 X2" = none := by decide +kernel
example : InnerBreak "G1\nX1".toList := ⟨"G1".toList, "X1".toList, rfl, fun h => absurd (h 'X' (by decide)) (by decide)⟩
example := (C84_text "G1 X1 X2".toList .param).1 (textError_some (by decide +kernel))
example := C84_refused newNull "G1 G0 X1".toList .assertion (textError_some (by decide +kernel))

example : (newNull.processStr "X1".toList).2 = some .invalidState ∧
    (newNull.processStr "G81 X1 Z-1 R2".toList).2 = some .attribute ∧
    (newNull.processStr "G17 G99 G81 X1 Z-1".toList).2 = some .type ∧
    (newNull.processStr "G17.1 G99 G81 X1 Z-1 R2".toList).2 = some .type ∧
    (newNull.processStr "G81 X1 Z-1 R2 G17 G99".toList).2 = none ∧
    (newNull.processStr "G17 G81 X1 Z-1".toList).2 = none := by decide +kernel

example : True := by
  obtain ⟨l, hl⟩ := textError_none (t := "G17 G99 G81 X1 Z-1") (by decide +kernel)
  have := (C84_machine (reader_null xyz).sound (by decide) hl .type).1 (by decide +kernel)
  trivial
example := C84_kinds (reader_null xyz).sound (by decide) "G17.1 G99 G81 X1 Z-1 R2".toList .type (by decide +kernel)

end Pygcode
