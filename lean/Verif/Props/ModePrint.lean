import Verif.Lemmas.Reread
import Verif.Props.Order

/-!
# The printed mode (C40)
-/

namespace Pygcode
open Props Machine

/-- The groups are listed in increasing order. -/
theorem groups_sorted : (modalGroups.map Prod.snd).Pairwise (· < ·) := by decide +kernel

/-- Table: every group of a class has a slot name. -/
theorem group_named (c : Cls) (k : ℕ) (h : c.group = some k) : k ∈ modalGroups.map Prod.snd := by
  have := Cls.forall_of_all (p := fun c => match c.group with
    | none => true
    | some k => (modalGroups.map Prod.snd).contains k) (by decide +kernel) c
  rw [h] at this
  simpa using this

/-- Table: only G96 takes the word of a class of a later group as a parameter: the spindle speed. -/
theorem later_letters (c d : Cls) (i j : ℕ) (hc : c.group = some i) (hd : d.group = some j) (hij : i < j)
    (l : Char) (hl : l ∈ classLetters d) (hp : l ∈ c.params) :
    c = .spindleConstantSurfaceSpeedMode ∧ d = .spindleSpeed := by
  have h1 := Cls.forall_of_all (p := fun c => Cls.all.all (fun d =>
    match c.group, d.group with
    | some i, some j => !decide (i < j) || (classLetters d).all (fun l => !decide (l ∈ c.params)) ||
        (c == .spindleConstantSurfaceSpeedMode && d == .spindleSpeed)
    | _, _ => true)) (by decide +kernel) c
  have h2 := Cls.forall_of_all (p := fun d =>
    match c.group, d.group with
    | some i, some j => !decide (i < j) || (classLetters d).all (fun l => !decide (l ∈ c.params)) ||
        (c == .spindleConstantSurfaceSpeedMode && d == .spindleSpeed)
    | _, _ => true) h1 d
  rw [hc, hd] at h2
  simp only [hij, decide_true, Bool.not_true, Bool.false_or, Bool.or_eq_true, List.all_eq_true,
    Bool.and_eq_true, beq_iff_eq] at h2
  rcases h2 with h2 | h2
  · have := h2 l hl
    simp [hp] at this
  · exact h2

/-- The mode of a machine that was driven by gcodes (C35), with values that print exactly, and
without a spindle speed while G96 is active. -/
structure PrintableMode (md : Mode) : Prop where
  ok : ModeOK md
  named : ModeAll Named md
  ws : ∀ k g, md k = some g → g.ws = false
  plain : ∀ k g, md k = some g → ∀ w ∈ g.word :: g.params, PlainWord w
  noG96S : ∀ g s, md 14 = some g → md 202 = some s → g.cls ≠ .spindleConstantSurfaceSpeedMode

theorem mem_gcodes (md : Mode) (g : GCode) : g ∈ md.gcodes ↔ ∃ k ∈ modalGroups.map Prod.snd, md k = some g := by
  unfold Mode.gcodes
  rw [List.mem_filterMap]

theorem gcodes_pairwise (md : Mode) : md.gcodes.Pairwise (fun a b => ∃ i j, i < j ∧ md i = some a ∧ md j = some b) := by
  unfold Mode.gcodes
  rw [List.pairwise_filterMap]
  exact groups_sorted.imp (fun {i j} hij a ha b hb => ⟨i, j, hij, ha, hb⟩)

/-- The printed mode reads as one line with the gcodes of the mode. -/
theorem mode_line (md : Mode) (h : PrintableMode md) :
    ∃ ws, Line.ofText md.str = .ok ⟨⟨ws, md.gcodes.map canon, []⟩, none, none⟩ := by
  have hslot : ∀ g ∈ md.gcodes, ∃ k, md k = some g := fun g hg => by
    obtain ⟨k, -, hk⟩ := (mem_gcodes md g).1 hg
    exact ⟨k, hk⟩
  have hnc : md.gcodes.Pairwise NC := by
    refine (gcodes_pairwise md).imp ?_
    rintro a b ⟨i, j, hij, ha, hb⟩
    have hga := (h.ok i a ha).1
    have hgb := (h.ok j b hb).1
    refine ⟨fun hw => ?_, fun k h1 h2 => ?_⟩
    · have h1 := h.named i a ha
      have h2 := h.named j b hb
      unfold Named at h1 h2
      rw [hw, h2] at h1
      simp only [Option.some.injEq] at h1
      rw [h1, hga] at hgb
      simp only [Option.some.injEq] at hgb
      omega
    · rw [hga] at h1; rw [hgb] at h2
      simp only [Option.some.injEq] at h1 h2
      omega
  have := line_reread md.gcodes [] (fun g hg => by obtain ⟨k, hk⟩ := hslot g hg; exact h.named k g hk)
    (fun g hg => by obtain ⟨k, hk⟩ := hslot g hg; exact (h.ok k g hk).2.1)
    (by
      refine (gcodes_pairwise md).imp ?_
      rintro a b ⟨i, j, hij, ha, hb⟩ hl
      have hga := (h.ok i a ha).1
      have hgb := (h.ok j b hb).1
      have h' := later_letters a.cls b.cls i j hga hgb hij _ (wordClass_letter (h.named j b hb)) hl
      have hi : i = 14 := by
        rw [h'.1] at hga
        have : Cls.group .spindleConstantSurfaceSpeedMode = some 14 := by decide +kernel
        rw [this] at hga; cases hga; rfl
      have hj : j = 202 := by
        rw [h'.2] at hgb
        have : Cls.group .spindleSpeed = some 202 := by decide +kernel
        rw [this] at hgb; cases hgb; rfl
      subst hi; subst hj
      exact h.noG96S a b ha hb h'.1)
    (fun g hg => by obtain ⟨k, hk⟩ := hslot g hg; exact h.ws k g hk)
    (by simp) (by simp)
    (by
      intro w hw
      rw [List.append_nil, List.mem_flatMap] at hw
      obtain ⟨g, hg, hw⟩ := hw
      obtain ⟨k, hk⟩ := hslot g hg
      exact h.plain k g hk w hw)
    (by
      intro hc
      have h1 := assert_conflict md.gcodes
      have h2 : Block.assertLoop [] [] md.gcodes = .ok () := by
        rw [(assertLoop_spec md.gcodes [] []).2]
        exact ⟨by simp, hnc⟩
      exact (h1.1 h2) hc)
  rw [List.map_nil, List.append_nil] at this
  exact ⟨_, this⟩

theorem copyOf_canon (md : Mode) (h : ModeOK md) (k : ℕ) (g : GCode) (hk : md k = some g) :
    SameGCode g (copyOf (canon g)) := by
  refine ⟨rfl, rfl, ?_⟩
  show g.params.Perm (g.sortedParams.filter _)
  rw [List.filter_eq_self.2]
  · exact (sortedParams_perm g).symm
  · intro w hw
    exact decide_eq_true ((h k g hk).2.2 w ((sortedParams_perm g).mem_iff.1 hw))

/-- Setting the gcodes of a mode, in any order, on top of another mode. -/
theorem foldl_gcodes (md : Mode) (h : ModeOK md) (gs : List GCode) (hp : gs.Perm (md.gcodes.map canon))
    (md0 : Mode) (k : ℕ) :
    (md k = none → (gs.foldl setIn md0) k = md0 k) ∧
    (∀ g, md k = some g → ∃ g', (gs.foldl setIn md0) k = some g' ∧ SameGCode g g') := by
  have hmem : ∀ x, x ∈ gs.filter (fun g => decide (g.cls.group = some k)) →
      ∃ g, md k = some g ∧ x = canon g := by
    intro x hx
    obtain ⟨h1, h2⟩ := List.mem_filter.1 hx
    obtain ⟨g, hg, rfl⟩ := List.mem_map.1 (hp.mem_iff.1 h1)
    obtain ⟨j, -, hj⟩ := (mem_gcodes md g).1 hg
    have h3 : g.cls.group = some k := of_decide_eq_true h2
    rw [(h j g hj).1] at h3
    cases h3
    exact ⟨g, hj, rfl⟩
  rw [foldl_setIn]
  constructor
  · intro hk
    have : gs.filter (fun g => decide (g.cls.group = some k)) = [] := by
      rw [List.eq_nil_iff_forall_not_mem]
      intro x hx
      obtain ⟨g, hg, -⟩ := hmem x hx
      rw [hk] at hg; cases hg
    rw [this]
    rfl
  · intro g hk
    have hgm : canon g ∈ gs.filter (fun g => decide (g.cls.group = some k)) := by
      rw [List.mem_filter]
      refine ⟨hp.mem_iff.2 (List.mem_map_of_mem ((mem_gcodes md g).2 ⟨k, ?_, hk⟩)), ?_⟩
      · exact group_named _ k (h k g hk).1
      · exact decide_eq_true (h k g hk).1
    cases hl : (gs.filter (fun g => decide (g.cls.group = some k))).getLast? with
    | none => rw [List.getLast?_eq_none_iff] at hl; rw [hl] at hgm; cases hgm
    | some x =>
      obtain ⟨g', hg', rfl⟩ := hmem x (List.mem_of_getLast? hl)
      rw [hk] at hg'; cases hg'
      exact ⟨_, rfl, copyOf_canon md h k g hk⟩

/-- C40: reading the printed mode and setting its gcodes in the null mode gives the same gcode
(word and parameters) in every slot, and nothing else. -/
theorem C40_reproduced (md : Mode) (h : PrintableMode md) :
    ∃ l, Line.ofText md.str = .ok l ∧ l.block.modalParams = [] ∧
      ∃ md', Mode.null.setMode l.block.gcodes = (md', none) ∧
        ∀ k, (md k = none ↔ md' k = none) ∧ ∀ g, md k = some g → ∃ g', md' k = some g' ∧ SameGCode g g' := by
  obtain ⟨ws, hl⟩ := mode_line md h
  refine ⟨_, hl, rfl, ?_⟩
  have hgok : ∀ g ∈ md.gcodes.map canon, GOK g := by
    intro g hg
    obtain ⟨x, hx, rfl⟩ := List.mem_map.1 hg
    obtain ⟨k, -, hk⟩ := (mem_gcodes md x).1 hx
    exact canon_ok (h.ok k x hk).2.1
  refine ⟨_, Pygcode.setMode_eq _ _ hgok, fun k => ?_⟩
  have hf := foldl_gcodes md h.ok _ (execSort_stable (md.gcodes.map canon)).1 Mode.null k
  refine ⟨⟨hf.1, fun h0 => ?_⟩, hf.2⟩
  cases hk : md k with
  | none => rfl
  | some g =>
    obtain ⟨g', hg', -⟩ := hf.2 g hk
    rw [h0] at hg'; cases hg'

/-- Table: only canned cycles retain parameters. -/
theorem retained_canned (c : Cls) (h : c.proc ≠ .canned) : c.modalParams = [] := by
  have := Cls.forall_of_all (p := fun c => c.proc == .canned || c.modalParams == []) (by decide +kernel) c
  simpa [h] using this

theorem goto_self (m : Machine) (v : Axis → ℚ) (h : ∀ a, v a = m.absPos.val a) (a : Axis) :
    (m.goto v).absPos.val a = m.absPos.val a := h a

/-- Gcodes without parameters, other than canned cycles and G80: modes are set, nothing moves. -/
theorem all_still (gs : List GCode) (hg : ∀ g ∈ gs, GOK g ∧ g.params = [] ∧ g.cls.proc ≠ .canned ∧ g.cls.proc ≠ .cancel)
    (m : Machine) (hm : m.WF) (f : ℕ → Position) (hs : m.state.systems = .dict f) :
    ∃ m', m.processAll gs = (m', none) ∧ m'.mode = gs.foldl setIn m.mode ∧ Frame m m' ∧ m'.WF ∧
      (∀ a, m'.absPos.val a = m.absPos.val a) ∧
      (∀ a ∈ m.axes, m'.rangeMin.val a = m.rangeMin.val a ∨ m'.rangeMin.val a = m.absPos.val a) ∧
      (∀ a ∈ m.axes, m'.rangeMax.val a = m.rangeMax.val a ∨ m'.rangeMax.val a = m.absPos.val a) := by
  induction gs generalizing m with
  | nil => exact ⟨m, rfl, rfl, Frame.refl m, hm, fun _ => rfl, fun _ _ => .inl rfl, fun _ _ => .inl rfl⟩
  | cons g gs ih =>
    obtain ⟨h1, h2, h3, h4⟩ := hg g List.mem_cons_self
    have hw := withMode_wf m hm (setIn m.mode g)
    have hb : ¬ (m.withMode (setIn m.mode g)).BadSys := not_bad_of_dict (f := f) hs
    have hmove : (m.withMode (setIn m.mode g)).move [] =
        ((m.withMode (setIn m.mode g)).goto ((m.withMode (setIn m.mode g)).target []), none) :=
      move_ok _ hw hb [] (by simp) (by simp)
    have hgoto : ∃ m₁, m.process g = (m₁, none) ∧ m₁.mode = setIn m.mode g ∧ Frame m m₁ ∧ m₁.WF ∧
        (∀ a, m₁.absPos.val a = m.absPos.val a) ∧
        (∀ a ∈ m.axes, m₁.rangeMin.val a = m.rangeMin.val a ∨ m₁.rangeMin.val a = m.absPos.val a) ∧
        (∀ a ∈ m.axes, m₁.rangeMax.val a = m.rangeMax.val a ∨ m₁.rangeMax.val a = m.absPos.val a) := by
      have hcs : (coords (m.withMode (setIn m.mode g)).axes g).map (fun c => (c.1, some c.2)) = [] := by
        unfold coords; rw [h2]; rfl
      have mv : ∃ m₁, (m.withMode (setIn m.mode g)).move [] = (m₁, none) ∧ m₁.mode = setIn m.mode g ∧
          Frame m m₁ ∧ m₁.WF ∧ (∀ a, m₁.absPos.val a = m.absPos.val a) ∧
          (∀ a ∈ m.axes, m₁.rangeMin.val a = m.rangeMin.val a ∨ m₁.rangeMin.val a = m.absPos.val a) ∧
          (∀ a ∈ m.axes, m₁.rangeMax.val a = m.rangeMax.val a ∨ m₁.rangeMax.val a = m.absPos.val a) := by
        refine ⟨_, hmove, rfl, (frame_withMode m _).trans (frame_goto _ _),
          goto_wf _ hw _ (fun a ha => hm.absWF a (by rw [hm.abs]; exact ha)), fun _ => rfl, ?_, ?_⟩
        · intro a ha
          have : ((m.withMode (setIn m.mode g)).goto ((m.withMode (setIn m.mode g)).target [])).rangeMin.val a =
              Min.min (m.absPos.val a) (m.rangeMin.val a) := by
            show (if a ∈ m.axes then _ else _) = _
            rw [if_pos ha]; rfl
          rw [this]
          exact (min_choice _ _).symm
        · intro a ha
          have : ((m.withMode (setIn m.mode g)).goto ((m.withMode (setIn m.mode g)).target [])).rangeMax.val a =
              Max.max (m.absPos.val a) (m.rangeMax.val a) := by
            show (if a ∈ m.axes then _ else _) = _
            rw [if_pos ha]; rfl
          rw [this]
          exact (max_choice _ _).symm
      rw [process_eq m g h1]
      unfold effect
      cases hpr : g.cls.proc with
      | nothing =>
        exact ⟨_, rfl, rfl, frame_withMode m _, hw, fun _ => rfl, fun _ _ => .inl rfl, fun _ _ => .inl rfl⟩
      | motion => simp only; rw [hcs]; exact mv
      | rapid => simp only; rw [hcs]; exact mv
      | cancel => exact absurd hpr h4
      | canned => exact absurd hpr h3
    obtain ⟨m₁, e1, e2, e3, e4, e5, e6, e7⟩ := hgoto
    obtain ⟨m', f1, f2, f3, f4, f5, f6, f7⟩ := ih (fun x hx => hg x (List.mem_cons_of_mem _ hx)) m₁ e4
      (by rw [e3.systems]; exact hs)
    refine ⟨m', ?_, ?_, e3.trans f3, f4, fun a => (f5 a).trans (e5 a), ?_, ?_⟩
    · unfold processAll andThen
      rw [e1]
      exact f1
    · rw [f2, e2]; rfl
    · intro a ha
      rcases f6 a (by rw [e3.axes]; exact ha) with h | h
      · rw [h]; exact e6 a ha
      · rw [h, e5]; exact .inr rfl
    · intro a ha
      rcases f7 a (by rw [e3.axes]; exact ha) with h | h
      · rw [h]; exact e7 a ha
      · rw [h, e5]; exact .inr rfl

/-- C40: executing the printed mode (no canned cycle active) on any machine succeeds, sets every
group that the mode has to the same gcode, leaves the others, and does not move the machine. -/
theorem C40_executed (md : Mode) (h : PrintableMode md) (hcan : ∀ g, md.motion = some g → g.cls.proc ≠ .canned)
    (m : Machine) (hm : m.WF) (f : ℕ → Position) (hs : m.state.systems = .dict f) :
    ∃ m', m.processStr md.str = (m', none) ∧ (∀ a, m'.absPos.val a = m.absPos.val a) ∧
      ∀ k, (md k = none → m'.mode k = m.mode k) ∧
        ∀ g, md k = some g → ∃ g', m'.mode k = some g' ∧ SameGCode g g' := by
  obtain ⟨ws, hl⟩ := mode_line md h
  have hperm := (execSort_stable (md.gcodes.map canon)).1
  obtain ⟨m', h1, h2, -, -, h5, -, -⟩ := all_still (execSort (md.gcodes.map canon)) (by
    intro g hg
    obtain ⟨x, hx, rfl⟩ := List.mem_map.1 (hperm.mem_iff.1 hg)
    obtain ⟨k, -, hk⟩ := (mem_gcodes md x).1 hx
    have hok := h.ok k x hk
    have hnc : x.cls.proc ≠ .canned := by
      intro hc
      have := moving_group x.cls (.inr (.inr hc))
      rw [hok.1] at this
      cases this
      exact hcan x hk hc
    refine ⟨canon_ok hok.2.1, ?_, hnc, ?_⟩
    · have hnil : x.params = [] := by
        rw [List.eq_nil_iff_forall_not_mem]
        intro w hw
        have := hok.2.2 w hw
        rw [retained_canned x.cls hnc] at this
        cases this
      have : (canon x).params.Perm x.params := sortedParams_perm x
      rw [hnil] at this
      exact this.eq_nil
    · intro hc
      have h3 := order_table x.cls
      have h4 := h3.2.2.1 (h3.2.2.2.1 hc)
      rw [hok.1] at h4
      cases h4.2) m hm f hs
  refine ⟨m', ?_, h5, fun k => ?_⟩
  · unfold processStr
    rw [hl]
    simp only [processBlock]
    have : m.processGcodes (md.gcodes.map canon) [] = m.processAll (execSort (md.gcodes.map canon ++ [])) := rfl
    rw [this, List.append_nil]
    exact h1
  · rw [h2]
    exact foldl_gcodes md h.ok _ hperm m.mode k

/-- C40, the exception: with G96 the spindle speed is read as one of its parameters and lost. -/
theorem C40_g96 : let g96 : GCode := ⟨.spindleConstantSurfaceSpeedMode, ⟨'G', .num 96⟩, [], false⟩
    let s : GCode := ⟨.spindleSpeed, ⟨'S', .num 100⟩, [], false⟩
    let md : Mode := (Mode.null.setMode [g96, s]).1
    md 14 = some g96 ∧ md 202 = some s ∧ ((newNull.processStr md.str).2 = none) ∧
      (newNull.processStr md.str).1.mode 14 = some g96 ∧
      (newNull.processStr md.str).1.mode 202 = none := by
  decide +kernel

/-- Modes of machines driven from a new one satisfy `PrintableMode` up to the values. -/
theorem kept_ws : Kept (fun _ => True) (fun md => ∀ k g, md k = some g → g.ws = false) where
  set := by
    intro md g h _ _ k x hx
    unfold setIn at hx
    cases hgr : g.cls.group with
    | none => rw [hgr] at hx; exact h k x hx
    | some j =>
      rw [hgr] at hx; simp only at hx
      by_cases hk : k = j
      · subst hk
        rw [Function.update_self] at hx
        cases hx
        rfl
      · rw [Function.update_of_ne hk] at hx
        exact h k x hx
  clear := by
    intro md h k x hx
    by_cases hk : k = 1
    · subst hk; rw [Function.update_self] at hx; cases hx
    · rw [Function.update_of_ne hk] at hx; exact h k x hx
  parsed := fun _ _ _ _ _ _ => trivial

/-- C40: whatever is done with a machine that starts with such a mode, the conditions on its mode
other than those on the values keep holding. -/
theorem C40_reachable (cs : List Call) (m : Machine) (hm : m.WF) (h1 : ModeOK m.mode)
    (h2 : ModeAll Named m.mode) (h3 : ∀ k g, m.mode k = some g → g.ws = false)
    (hc : ∀ c ∈ cs, c.OK m.axes m.absPos.unit) (hn : ∀ c ∈ cs, c.All Named) :
    ModeOK (Call.runAll m cs).mode ∧ ModeAll Named (Call.runAll m cs).mode ∧
      ∀ k g, (Call.runAll m cs).mode k = some g → g.ws = false :=
  ⟨C35_history cs m hm h1 hc, C35_named cs m hm h2 hc hn, kept_ws.calls cs m hm hc
    (fun c _ => by cases c <;> simp [Call.All]) h3⟩

/-- A mode, its text, and what a null machine makes of it. -/
def sampleText : List Char := "G01 G17 G91 G55 M03 F100 S2500".toList

example : let md := (newNull.processStr "S2500 M3 F100 G55 G91 G17 G1 X3".toList).1.mode
    md.str = sampleText ∧ (newNull.processStr md.str).2 = none ∧
      (newNull.processStr md.str).1.mode.gcodes = md.gcodes ∧ md.gcodes.length = 7 := by decide +kernel
/-- With a canned cycle active, executing the printed mode drills another hole. -/
example : let m := (newNull.processStr "G81 X1 Y2 Z-3 R2 G17".toList).1
    m.mode.str = "G81 R2 X1 Y2 Z-3 G17".toList ∧
      (newNull.processStr m.mode.str).1.absPos.val .X = 1 := by decide +kernel

end Pygcode
