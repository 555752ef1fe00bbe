import Verif.Props.Modal

/-!
# Order within a block (C38), G80 (C46)
-/

namespace Pygcode
open Props Machine

/-- Table: what has an effect besides its mode is a motion (order 242, motion group) or G80 (order 241,
no group). -/
theorem order_table (c : Cls) :
    (c.order = 242 → c.group = some 1) ∧ (c.group = some 1 → c.order = 242) ∧
    (c.order = 241 → c.proc = .cancel ∧ c.group = none) ∧ (c.proc = .cancel → c.order = 241) ∧
    (c.order ≠ 241 → c.order ≠ 242 → c.proc = .nothing) := by
  have := Cls.forall_of_all (p := fun c =>
    (!(c.order == 242) || c.group == some 1) && (!(c.group == some 1) || c.order == 242) &&
    (!(c.order == 241) || (c.proc == .cancel && c.group == none)) && (!(c.proc == .cancel) || c.order == 241) &&
    (c.order == 241 || c.order == 242 || c.proc == .nothing)) (by decide +kernel) c
  simp only [Bool.and_eq_true, Bool.or_eq_true, Bool.not_eq_true', beq_eq_false_iff_ne, beq_iff_eq] at this
  tauto

/-- No conflict between two gcodes. -/
def NC (a b : GCode) : Prop := a.word ≠ b.word ∧ ∀ k, a.cls.group = some k → b.cls.group ≠ some k

theorem NC.symm {a b : GCode} (h : NC a b) : NC b a :=
  ⟨h.1.symm, fun k hb ha => h.2 k ha hb⟩

theorem pairwise_of_noConflict (gs : List GCode) (h : ¬ Conflict gs) : gs.Pairwise NC := by
  have := (assert_conflict gs).2 h
  rw [(assertLoop_spec gs [] []).2] at this
  exact this.2

theorem withMode_withMode (m : Machine) (md₁ md₂ : Mode) (h : md₂.coordSystem = none → md₁.coordSystem = none) :
    (m.withMode md₁).withMode md₂ = m.withMode md₂ := by
  unfold withMode
  cases h2 : md₂.coordSystem with
  | none => rw [h h2]
  | some g => rfl

theorem setIn_keeps (md : Mode) (g : GCode) (k : ℕ) (h : setIn md g k = none) : md k = none := by
  unfold setIn at h
  cases hg : g.cls.group with
  | none => rw [hg] at h; exact h
  | some j =>
    rw [hg] at h
    by_cases hk : k = j
    · subst hk; simp only [Function.update_self] at h; cases h
    · simpa only [Function.update_of_ne hk] using h

theorem setIn_comm (md : Mode) (a b : GCode) (h : NC a b) : setIn (setIn md a) b = setIn (setIn md b) a := by
  unfold setIn
  cases ha : a.cls.group with
  | none => rfl
  | some i =>
    cases hb : b.cls.group with
    | none => rfl
    | some j =>
      have : i ≠ j := by rintro rfl; exact h.2 i ha hb
      simp only
      rw [Function.update_comm this]

theorem process_nothing (m : Machine) (g : GCode) (hg : GOK g) (h : g.cls.proc = .nothing) :
    m.process g = (m.withMode (setIn m.mode g), none) := by
  rw [process_eq m g hg]
  unfold effect
  rw [h]

theorem process_comm (m : Machine) (a b : GCode) (ha : GOK a) (hb : GOK b) (h : NC a b)
    (ho : a.cls.order = b.cls.order) :
    andThen (m.process a) (fun m' => m'.process b) = andThen (m.process b) (fun m' => m'.process a) := by
  have ta := order_table a.cls
  have tb := order_table b.cls
  by_cases h1 : a.cls.order = 241
  · have hpa := ta.2.2.1 h1
    have hpb := tb.2.2.1 (ho ▸ h1)
    have hsame : ∀ m : Machine, m.process a = m.process b := by
      intro m
      rw [process_eq m a ha, process_eq m b hb]
      unfold setIn effect
      rw [hpa.1, hpb.1, hpa.2, hpb.2]
    simp only [hsame]
  · by_cases h2 : a.cls.order = 242
    · exact absurd (tb.1 (ho ▸ h2)) (h.2 1 (ta.1 h2))
    · have hpa := ta.2.2.2.2 h1 h2
      have hpb := tb.2.2.2.2 (ho ▸ h1) (ho ▸ h2)
      rw [process_nothing m a ha hpa, process_nothing m b hb hpb]
      simp only [andThen]
      rw [process_nothing _ b hb hpb, process_nothing _ a ha hpa]
      congr 1
      show (m.withMode (setIn m.mode a)).withMode (setIn (setIn m.mode a) b) =
        (m.withMode (setIn m.mode b)).withMode (setIn (setIn m.mode b) a)
      rw [withMode_withMode m (setIn m.mode a) (setIn (setIn m.mode a) b) (setIn_keeps _ b 12),
        withMode_withMode m (setIn m.mode b) (setIn (setIn m.mode b) a) (setIn_keeps _ a 12),
        setIn_comm m.mode a b h]

theorem andThen_assoc (r : MRes) (f g : Machine → MRes) :
    andThen (andThen r f) g = andThen r (fun m => andThen (f m) g) := by
  rcases r with ⟨m, _ | e⟩ <;> rfl

theorem processAll_append (a b : List GCode) (m : Machine) :
    m.processAll (a ++ b) = andThen (m.processAll a) (fun m' => m'.processAll b) := by
  induction a generalizing m with
  | nil => rfl
  | cons g a ih =>
    rw [List.cons_append, processAll, processAll, andThen_assoc]
    congr 1
    funext m'
    exact ih m'

theorem processAll_front (p : List GCode) (a : GCode) (q : List GCode) (hp : ∀ x ∈ p, GOK x) (ha : GOK a)
    (hn : ∀ x ∈ p, NC x a) (ho : ∀ x ∈ p, x.cls.order = a.cls.order) (m : Machine) :
    m.processAll (p ++ a :: q) = m.processAll (a :: (p ++ q)) := by
  induction p generalizing m with
  | nil => rfl
  | cons x p ih =>
    have ih' : ∀ m : Machine, m.processAll (p ++ a :: q) = m.processAll (a :: (p ++ q)) :=
      ih (fun y hy => hp y (List.mem_cons_of_mem _ hy)) (fun y hy => hn y (List.mem_cons_of_mem _ hy))
        (fun y hy => ho y (List.mem_cons_of_mem _ hy))
    have h1 : m.processAll (x :: p ++ a :: q) =
        andThen (andThen (m.process x) (fun m' => m'.process a)) (fun m' => m'.processAll (p ++ q)) := by
      rw [List.cons_append, processAll, andThen_assoc]
      congr 1
      funext m'
      rw [ih' m', processAll]
    rw [h1, process_comm m x a (hp x List.mem_cons_self) ha (hn x List.mem_cons_self) (ho x List.mem_cons_self),
      andThen_assoc]
    rfl

/-- Two orderings of the same conflict-free gcodes by execution order have the same effect. -/
theorem processAll_perm (l l' : List GCode) (hperm : l.Perm l')
    (hs : l.Pairwise (fun a b => a.cls.order ≤ b.cls.order))
    (hs' : l'.Pairwise (fun a b => a.cls.order ≤ b.cls.order))
    (hn : l.Pairwise NC) (hg : ∀ g ∈ l, GOK g) (m : Machine) : m.processAll l = m.processAll l' := by
  induction l generalizing l' m with
  | nil => rw [List.nil_perm.1 hperm]
  | cons a t ih =>
    have ha : a ∈ l' := hperm.mem_iff.1 List.mem_cons_self
    obtain ⟨p, q, rfl⟩ := List.append_of_mem ha
    rw [List.pairwise_cons] at hs hn
    have hpt : t.Perm (p ++ q) := by
      have := hperm.trans List.perm_middle
      exact (List.perm_cons a).1 this
    have hmem : ∀ x ∈ p, x ∈ t := fun x hx => hpt.mem_iff.2 (List.mem_append_left _ hx)
    have ho : ∀ x ∈ p, x.cls.order = a.cls.order := by
      intro x hx
      apply le_antisymm
      · rw [List.pairwise_append] at hs'
        exact hs'.2.2 x hx a List.mem_cons_self
      · exact hs.1 x (hmem x hx)
    rw [processAll_front p a q (fun x hx => hg x (List.mem_cons_of_mem _ (hmem x hx))) (hg a List.mem_cons_self)
      (fun x hx => (hn.1 x (hmem x hx)).symm) ho m]
    rw [processAll, processAll]
    congr 1
    funext m'
    apply ih (p ++ q) hpt hs.2 _ hn.2 (fun g hgm => hg g (List.mem_cons_of_mem _ hgm))
    exact hs'.sublist (List.Sublist.append_left (List.sublist_cons_self a q) p)

/-- Where the gcode of the left-over words comes in execution order: after everything of order up to 242. -/
theorem execSort_snoc (gs : List GCode) (mg : GCode) :
    execSort (gs ++ [mg]) =
      (execSort gs).filter (fun g => decide (g.cls.order ≤ mg.cls.order)) ++
        mg :: (execSort gs).filter (fun g => decide (mg.cls.order < g.cls.order)) := by
  obtain ⟨hp, hs, hf⟩ := execSort_stable gs
  apply stableSorted_unique (gs ++ [mg]) _ _ (execSort_stable _)
  refine ⟨?_, ?_, ?_⟩
  · have h1 : ((execSort gs).filter (fun g => decide (g.cls.order ≤ mg.cls.order)) ++
        (execSort gs).filter (fun g => decide (mg.cls.order < g.cls.order))).Perm (execSort gs) := by
      have := List.filter_append_perm (fun g : GCode => decide (g.cls.order ≤ mg.cls.order)) (execSort gs)
      have hf' : (fun g : GCode => decide (mg.cls.order < g.cls.order)) =
          (fun g : GCode => !decide (g.cls.order ≤ mg.cls.order)) := by
        funext g
        rw [← decide_not]
        exact decide_eq_decide.2 not_le.symm
      rw [hf']
      exact this
    refine List.perm_middle.trans ((List.perm_cons mg).2 (h1.trans hp) |>.trans ?_)
    exact (List.perm_append_singleton mg gs).symm
  · rw [List.pairwise_append]
    refine ⟨hs.sublist List.filter_sublist, ?_, ?_⟩
    · rw [List.pairwise_cons]
      refine ⟨?_, hs.sublist List.filter_sublist⟩
      intro b hb
      have := of_decide_eq_true (List.mem_filter.1 hb).2
      omega
    · intro a ha b hb
      have h1 := of_decide_eq_true (List.mem_filter.1 ha).2
      rcases List.mem_cons.1 hb with rfl | hb
      · exact h1
      · have h2 := of_decide_eq_true (List.mem_filter.1 hb).2
        omega
  · intro n
    rw [List.filter_append, List.filter_cons, List.filter_filter, List.filter_filter, List.filter_append, ← hf n]
    rcases lt_trichotomy n mg.cls.order with h | h | h
    · have h1 : (execSort gs).filter (fun a => (a.cls.order == n) && decide (a.cls.order ≤ mg.cls.order)) =
          (execSort gs).filter (fun a => a.cls.order == n) := by
        apply List.filter_congr; intro a _
        by_cases ha : a.cls.order = n
        · simp [ha]; omega
        · simp [ha]
      have h2 : (execSort gs).filter (fun a => (a.cls.order == n) && decide (mg.cls.order < a.cls.order)) = [] := by
        rw [List.filter_eq_nil_iff]; intro a _
        by_cases ha : a.cls.order = n
        · simp [ha]; omega
        · simp [ha]
      rw [h1, h2]
      have : ¬ mg.cls.order = n := by omega
      simp [this]
    · have h1 : (execSort gs).filter (fun a => (a.cls.order == n) && decide (a.cls.order ≤ mg.cls.order)) =
          (execSort gs).filter (fun a => a.cls.order == n) := by
        apply List.filter_congr; intro a _
        by_cases ha : a.cls.order = n
        · simp [ha]; omega
        · simp [ha]
      have h2 : (execSort gs).filter (fun a => (a.cls.order == n) && decide (mg.cls.order < a.cls.order)) = [] := by
        rw [List.filter_eq_nil_iff]; intro a _
        by_cases ha : a.cls.order = n
        · simp [ha]; omega
        · simp [ha]
      rw [h1, h2]
      simp [h]
    · have h1 : (execSort gs).filter (fun a => (a.cls.order == n) && decide (a.cls.order ≤ mg.cls.order)) = [] := by
        rw [List.filter_eq_nil_iff]; intro a _
        by_cases ha : a.cls.order = n
        · simp [ha]; omega
        · simp [ha]
      have h2 : (execSort gs).filter (fun a => (a.cls.order == n) && decide (mg.cls.order < a.cls.order)) =
          (execSort gs).filter (fun a => a.cls.order == n) := by
        apply List.filter_congr; intro a _
        by_cases ha : a.cls.order = n
        · simp [ha]; omega
        · simp [ha]
      rw [h1, h2]
      have : ¬ mg.cls.order = n := by omega
      simp [this]

/-- C38: the written order of the gcodes of a conflict-free block does not matter, whatever the
left-over words: same final machine (as a whole) and same exception. -/
theorem C38_order (m : Machine) (gs gs' : List GCode) (mp : List Word) (hperm : gs.Perm gs')
    (hc : ¬ Conflict gs) (hg : ∀ g ∈ gs, GOK g) :
    m.processGcodes gs mp = m.processGcodes gs' mp := by
  have hn := pairwise_of_noConflict gs hc
  obtain ⟨hp, hs, -⟩ := execSort_stable gs
  obtain ⟨hp', hs', -⟩ := execSort_stable gs'
  have hss : (execSort gs).Perm (execSort gs') := hp.trans (hperm.trans hp'.symm)
  have hns : (execSort gs).Pairwise NC := hp.symm.pairwise hn (fun h => NC.symm h)
  have hgs : ∀ g ∈ execSort gs, GOK g := fun g h => hg g (hp.mem_iff.1 h)
  unfold processGcodes
  cases m.modalGcode mp with
  | error e => rfl
  | ok og =>
    cases og with
    | none =>
      simp only [Option.toList, List.append_nil]
      exact processAll_perm _ _ hss hs hs' hns hgs m
    | some mg =>
      simp only [Option.toList]
      rw [execSort_snoc, execSort_snoc, processAll_append, processAll_append]
      have key : ∀ (p : GCode → Bool) (m : Machine),
          m.processAll ((execSort gs).filter p) = m.processAll ((execSort gs').filter p) := by
        intro p m
        exact processAll_perm _ _ (hss.filter p) (hs.sublist List.filter_sublist)
          (hs'.sublist List.filter_sublist) (hns.sublist List.filter_sublist)
          (fun g h => hgs g (List.mem_of_mem_filter h)) m
      rw [key]
      congr 1
      funext m'
      rw [processAll, processAll]
      congr 1
      funext m''
      exact key _ m''

/-- A block written in two orders; a conflicting pair shows that the condition is needed. -/
example : let a := sampleMachine.processStr "G91 G55 G1 X3 M3 S100".toList
    let b := sampleMachine.processStr "S100 M3 G1 X3 G55 G91".toList
    (a.1.absPos.val .X, a.1.state.cur, a.2) = (b.1.absPos.val .X, b.1.state.cur, b.2) ∧
      (a.1.absPos.val .X, a.1.state.cur, a.2) = (3, 2, none) := by decide +kernel
example : let g0 : GCode := ⟨.rapidMove, ⟨'G', .num 0⟩, [⟨'X', .num 1⟩], false⟩
    let g1 : GCode := ⟨.linearMove, ⟨'G', .num 1⟩, [⟨'X', .num 2⟩], false⟩
    ((sampleMachine.processGcodes [g0, g1] []).1.absPos.val .X, (sampleMachine.processGcodes [g1, g0] []).1.absPos.val .X) =
      (13, 12) := by decide +kernel

/-! ## C46 -/

/-- Mode after a gcode that did not fail. -/
def stepMode (md : Mode) (g : GCode) : Mode :=
  if g.cls.proc = .cancel then Function.update (setIn md g) 1 none else setIn md g

theorem effect_mode_eq (m : Machine) (hm : m.WF) (g : GCode) :
    (m.effect g).1.mode = if g.cls.proc = .cancel then Function.update m.mode 1 none else m.mode := by
  unfold effect
  cases g.cls.proc with
  | nothing => rfl
  | motion => simp only; rw [← moves_one]; exact (moves_mode _ 1 m hm).1
  | rapid => simp only; rw [← moves_one]; exact (moves_mode _ 1 m hm).1
  | cancel => rfl
  | canned =>
    simp only
    cases m.cannedCoords g with
    | error e => rfl
    | ok cs =>
      simp only
      cases loopCount g with
      | error e => rfl
      | ok n => exact (moves_mode cs n m hm).1

theorem process_mode (m : Machine) (hm : m.WF) (g : GCode) (hg : GOK g) :
    (m.process g).1.mode = stepMode m.mode g := by
  rw [process_eq m g hg, effect_mode_eq _ (withMode_wf m hm _) g]
  rfl

theorem all_mode (gs : List GCode) (hg : ∀ g ∈ gs, GOK g) (m : Machine) (hm : m.WF) (m' : Machine)
    (h : m.processAll gs = (m', none)) : m'.mode = gs.foldl stepMode m.mode := by
  induction gs generalizing m with
  | nil => cases h; rfl
  | cons g gs ih =>
    have hg0 := hg g List.mem_cons_self
    have hwf := (path_process m hm g hg0).wf hm
    have hmd := process_mode m hm g hg0
    unfold processAll andThen at h
    rcases hp : m.process g with ⟨n, _ | e'⟩
    · rw [hp] at h hwf hmd
      rw [List.foldl_cons, ← hmd]
      exact ih (fun x hx => hg x (List.mem_cons_of_mem _ hx)) n hwf h
    · rw [hp] at h; cases h

theorem stepMode_motion (md : Mode) (g : GCode) (h1 : g.cls.group ≠ some 1) (h2 : g.cls.proc ≠ .cancel) :
    stepMode md g 1 = md 1 := by
  unfold stepMode setIn
  rw [if_neg h2]
  cases hg : g.cls.group with
  | none => rfl
  | some k =>
    simp only
    rw [Function.update_of_ne]
    rintro rfl
    exact h1 hg

theorem foldl_motion (gs : List GCode) (h : ∀ g ∈ gs, g.cls.group ≠ some 1 ∧ g.cls.proc ≠ .cancel) (md : Mode) :
    (gs.foldl stepMode md) 1 = md 1 := by
  induction gs generalizing md with
  | nil => rfl
  | cons g gs ih =>
    rw [List.foldl_cons, ih (fun x hx => h x (List.mem_cons_of_mem _ hx))]
    exact stepMode_motion md g (h g List.mem_cons_self).1 (h g List.mem_cons_self).2

theorem foldl_empty (gs : List GCode) (h : ∀ g ∈ gs, g.cls.group ≠ some 1) (md : Mode) (hm : md 1 = none) :
    (gs.foldl stepMode md) 1 = none := by
  induction gs generalizing md with
  | nil => exact hm
  | cons g gs ih =>
    rw [List.foldl_cons]
    apply ih (fun x hx => h x (List.mem_cons_of_mem _ hx))
    by_cases hc : g.cls.proc = .cancel
    · unfold stepMode; rw [if_pos hc]; exact Function.update_self _ _ _
    · rw [stepMode_motion md g (h g List.mem_cons_self) hc]; exact hm

/-- C46: after a conflict-free block with G80 (and no left-over words) that did not fail, the motion
mode is the block's own motion gcode (its modal copy), if it has one, and otherwise empty. -/
theorem C46_cancel (m : Machine) (hm : m.WF) (gs : List GCode) (hg : ∀ g ∈ gs, GOK g) (hc : ¬ Conflict gs)
    (g80 : GCode) (h80 : g80 ∈ gs) (hcls : g80.cls = .cancelCannedCycle) (m' : Machine)
    (h : m.processGcodes gs [] = (m', none)) :
    ((∀ g ∈ gs, g.cls.group ≠ some 1) → m'.mode.motion = none) ∧
    (∀ g ∈ gs, g.cls.group = some 1 → ∃ c, g.modalCopy = .ok c ∧ m'.mode.motion = some c) := by
  have hp := (execSort_stable gs).1
  have hs := (execSort_stable gs).2.1
  have hns : (execSort gs).Pairwise NC := hp.symm.pairwise (pairwise_of_noConflict gs hc) (fun h => NC.symm h)
  have hgs : ∀ g ∈ execSort gs, GOK g := fun g hgm => hg g (hp.mem_iff.1 hgm)
  have hall : m.processAll (execSort gs) = (m', none) := by
    have : m.processGcodes gs [] = m.processAll (execSort (gs ++ [])) := rfl
    rw [List.append_nil] at this
    rw [← this]; exact h
  have hmd := all_mode _ hgs m hm m' hall
  constructor
  · intro hno
    obtain ⟨pre, post, he⟩ := List.append_of_mem (hp.mem_iff.2 h80)
    show m'.mode 1 = none
    rw [hmd, he, List.foldl_append, List.foldl_cons]
    apply foldl_empty
    · intro g hgm
      exact hno g (hp.mem_iff.1 (by rw [he]; simp [hgm]))
    · have : g80.cls.proc = .cancel := by rw [hcls]; decide +kernel
      unfold stepMode
      rw [if_pos this]
      exact Function.update_self _ _ _
  · intro g hgm hgr
    obtain ⟨pre, post, he⟩ := List.append_of_mem (hp.mem_iff.2 hgm)
    refine ⟨copyOf g, modalCopy_eq g (hg g hgm), ?_⟩
    show m'.mode 1 = _
    rw [hmd, he, List.foldl_append, List.foldl_cons]
    rw [he, List.pairwise_append, List.pairwise_cons] at hs hns
    rw [foldl_motion]
    · have hnc : g.cls.proc ≠ .cancel := by
        intro hcan
        have h1 := (order_table g.cls).2.2.2.1 hcan
        have h2 := (order_table g.cls).2.1 hgr
        omega
      unfold stepMode
      rw [if_neg hnc, setIn_motion _ g hgr]
      exact Function.update_self _ _ _
    · intro x hx
      refine ⟨(hns.2.1.1 x hx).2 1 hgr, fun hcan => ?_⟩
      have h1 := (order_table x.cls).2.2.2.1 hcan
      have h2 := (order_table g.cls).2.1 hgr
      have h3 := hs.2.1.1 x hx
      omega

/-- C46: with an empty motion mode, blocks that give no motion leave it empty, and any block with
left-over words is refused without effect. -/
theorem C46_refused_after (m : Machine) (hm : m.WF) (hi : m.ignoreInvalid = false) (hmo : m.mode.motion = none)
    (gs : List GCode) (hg : ∀ g ∈ gs, GOK g) (mp : List Word) :
    (mp ≠ [] → m.processGcodes gs mp = (m, some .invalidState)) ∧
    (mp = [] → (∀ g ∈ gs, g.cls.group ≠ some 1) → ∀ m', m.processGcodes gs mp = (m', none) →
      m'.mode.motion = none) := by
  constructor
  · intro hne
    unfold processGcodes modalGcode
    rw [if_neg hne, hmo]
    simp [hi]
  · rintro rfl hno m' h
    have hp := (execSort_stable gs).1
    have hall : m.processAll (execSort gs) = (m', none) := by
      have : m.processGcodes gs [] = m.processAll (execSort (gs ++ [])) := rfl
      rw [List.append_nil] at this
      rw [← this]; exact h
    have hmd := all_mode _ (fun g hgm => hg g (hp.mem_iff.1 hgm)) m hm m' hall
    show m'.mode 1 = none
    rw [hmd]
    exact foldl_empty _ (fun g hgm => hno g (hp.mem_iff.1 hgm)) _ hmo

example : let m := (sampleMachine.processStr "G80".toList).1
    (m.mode.motion, (m.processStr "X1".toList).2, ((m.processStr "G80 G1 X1".toList).1.mode.motion).map (fun g => g.cls)) =
      (none, some .invalidState, some .linearMove) := by decide +kernel
/-- Left-over words beside G80 are given to the motion mode before the block: it stays active. -/
example : let m := (sampleMachine.processStr "G81 X1 Z-1 R2".toList).1
    (((m.processStr "G80 R3".toList).1.mode.motion).map (fun g => g.cls), (m.processStr "G80 R3".toList).2) =
      (some .drillingCycle, none) := by decide +kernel

end Pygcode
