import Verif.Lemmas.NearRead
import Verif.Props.MachineMove

/-!
# Ranges of machines that differ in the motion mode and the range only
-/

namespace Pygcode
open Props Machine Spec

/-! ## The least and the greatest of numbers -/

/-- The least of `x` and the numbers of a list. -/
def leastOf (x : ℚ) (l : List ℚ) : ℚ := l.foldl min x

/-- The greatest of `x` and the numbers of a list. -/
def greatestOf (x : ℚ) (l : List ℚ) : ℚ := l.foldl max x

theorem leastOf_least (x : ℚ) (l : List ℚ) : IsLeast {y | y = x ∨ y ∈ l} (leastOf x l) := by
  unfold leastOf
  induction l generalizing x with
  | nil => exact ⟨.inl rfl, by rintro y (rfl | h); exact le_refl _; cases h⟩
  | cons a l ih =>
    obtain ⟨h1, h2⟩ := ih (min x a)
    rw [List.foldl_cons]
    refine ⟨?_, ?_⟩
    · rcases h1 with h1 | h1
      · rw [h1]
        rcases min_choice x a with h | h
        · exact .inl h
        · right; rw [h]; simp
      · exact .inr (by simp [h1])
    · have h0 := h2 (.inl rfl)
      rintro y (rfl | hy)
      · exact h0.trans (min_le_left _ _)
      · rcases List.mem_cons.1 hy with rfl | hy
        · exact h0.trans (min_le_right _ _)
        · exact h2 (.inr hy)

theorem greatestOf_greatest (x : ℚ) (l : List ℚ) : IsGreatest {y | y = x ∨ y ∈ l} (greatestOf x l) := by
  unfold greatestOf
  induction l generalizing x with
  | nil => exact ⟨.inl rfl, by rintro y (rfl | h); exact le_refl _; cases h⟩
  | cons a l ih =>
    obtain ⟨h1, h2⟩ := ih (max x a)
    rw [List.foldl_cons]
    refine ⟨?_, ?_⟩
    · rcases h1 with h1 | h1
      · rw [h1]
        rcases max_choice x a with h | h
        · exact .inl h
        · right; rw [h]; simp
      · exact .inr (by simp [h1])
    · have h0 := h2 (.inl rfl)
      rintro y (rfl | hy)
      · exact (le_max_left _ _).trans h0
      · rcases List.mem_cons.1 hy with rfl | hy
        · exact (le_max_right _ _).trans h0
        · exact h2 (.inr hy)

theorem leastOf_append (x : ℚ) (a b : List ℚ) : leastOf (leastOf x a) b = leastOf x (a ++ b) := (List.foldl_append ..).symm

theorem greatestOf_append (x : ℚ) (a b : List ℚ) : greatestOf (greatestOf x a) b = greatestOf x (a ++ b) := (List.foldl_append ..).symm

/-- Lists that go equally low. -/
theorem leastOf_eq {x : ℚ} {a b : List ℚ} (h : ∀ y ∈ a, leastOf x b ≤ y) (h' : ∀ y ∈ b, leastOf x a ≤ y) : leastOf x a = leastOf x b := by
  obtain ⟨a1, a2⟩ := leastOf_least x a
  obtain ⟨b1, b2⟩ := leastOf_least x b
  apply le_antisymm
  · rcases b1 with b1 | b1
    · rw [b1]; exact a2 (.inl rfl)
    · exact h' _ b1
  · rcases a1 with a1 | a1
    · rw [a1]; exact b2 (.inl rfl)
    · exact h _ a1

/-- Lists that go equally high. -/
theorem greatestOf_eq {x : ℚ} {a b : List ℚ} (h : ∀ y ∈ a, y ≤ greatestOf x b) (h' : ∀ y ∈ b, y ≤ greatestOf x a) : greatestOf x a = greatestOf x b := by
  obtain ⟨a1, a2⟩ := greatestOf_greatest x a
  obtain ⟨b1, b2⟩ := greatestOf_greatest x b
  apply le_antisymm
  · rcases a1 with a1 | a1
    · rw [a1]; exact b2 (.inl rfl)
    · exact h _ a1
  · rcases b1 with b1 | b1
    · rw [b1]; exact a2 (.inl rfl)
    · exact h' _ b1

theorem leastOf_le {x : ℚ} {l : List ℚ} {y : ℚ} (h : y = x ∨ y ∈ l) : leastOf x l ≤ y := (leastOf_least x l).2 h

theorem le_greatestOf {x : ℚ} {l : List ℚ} {y : ℚ} (h : y = x ∨ y ∈ l) : y ≤ greatestOf x l := (greatestOf_greatest x l).2 h

theorem leastOf_comm (x : ℚ) (a b : List ℚ) : leastOf x (a ++ b) = leastOf x (b ++ a) :=
  leastOf_eq (fun y hy => leastOf_le (.inr (by simpa [or_comm] using hy))) (fun y hy => leastOf_le (.inr (by simpa [or_comm] using hy)))

theorem greatestOf_comm (x : ℚ) (a b : List ℚ) : greatestOf x (a ++ b) = greatestOf x (b ++ a) :=
  greatestOf_eq (fun y hy => le_greatestOf (.inr (by simpa [or_comm] using hy))) (fun y hy => le_greatestOf (.inr (by simpa [or_comm] using hy)))

/-- The range after a path. -/
theorem path_range {m m' : Machine} {ps : List Position} (h : Machine.Path m ps m') (a : Axis) (ha : a ∈ m.axes) :
    m'.rangeMin.val a = leastOf (m.rangeMin.val a) (ps.map (fun p => p.val a)) ∧
      m'.rangeMax.val a = greatestOf (m.rangeMax.val a) (ps.map (fun p => p.val a)) := by
  have e : ∀ x y : ℚ, (x = y ∨ ∃ p ∈ ps, x = p.val a) ↔ (x = y ∨ x ∈ ps.map (fun p => p.val a)) := by
    intro x y
    simp only [List.mem_map, eq_comm]
  constructor
  · refine (path_low h a ha).unique ?_
    simp only [e]
    exact leastOf_least _ _
  · refine (path_high h a ha).unique ?_
    simp only [e]
    exact greatestOf_greatest _ _

/-! ## The same positions are visited -/

theorem visitedMoves_near {cs cs' : Coords} (hp : cs.Perm cs') (hn : (cs.map Prod.fst).Nodup) (n : ℕ) :
    ∀ {a b : Machine}, NearTo a b → a.WF → b.WF → visitedMoves a cs n = visitedMoves b cs' n := by
  induction n with
  | zero => exact fun _ _ _ => rfl
  | succ n ih =>
    intro a b h ha hb
    have hm := move_near h ha hb hp hn
    have w1 := move_wf a ha cs
    have w2 := move_wf b hb cs'
    unfold visitedMoves
    generalize a.move cs = r at hm w1
    generalize b.move cs' = s at hm w2
    obtain ⟨r, er⟩ := r
    obtain ⟨s, es⟩ := s
    obtain ⟨h1, h2⟩ := hm
    simp only at h1 h2 w1 w2
    subst h2
    cases er with
    | none => simp only; rw [h1.abs, ih h1 w1 w2]
    | some e => rfl

theorem visitedEffect_near {a b : Machine} (h : NearTo a b) (ha : a.WF) (hb : b.WF) {g g' : GCode} (hs : SameGCode g g')
    (hg : GOK g) : visitedEffect a g = visitedEffect b g' := by
  have hb' : ((coords a.axes g).map (fun c => (c.1, some c.2))).Perm
      ((coords b.axes g').map (fun c => (c.1, some c.2))) := by
    rw [h.axes]; exact (coords_perm hs _).map _
  have hmv := visitedMoves_near hb' (base_nodup a.axes hg) 1 h ha hb
  have hc := canned_near h hs hg
  unfold visitedEffect
  rw [hs.1]
  cases g'.cls.proc with
  | nothing => rfl
  | motion => exact hmv
  | rapid => exact hmv
  | cancel => rfl
  | canned =>
    simp only
    rw [loop_same hs hg]
    generalize a.cannedCoords g = x at hc
    generalize b.cannedCoords g' = y at hc
    cases x with
    | error e =>
      cases y with
      | error e' => rfl
      | ok cs => exact hc.elim
    | ok cs =>
      cases y with
      | error e' => exact hc.elim
      | ok cs' =>
        simp only
        cases loopCount g' with
        | error e => rfl
        | ok n => exact visitedMoves_near hc.1 hc.2 n h ha hb

theorem visited_near {a b : Machine} (h : NearTo a b) (ha : a.WF) (hb : b.WF) {g g' : GCode} (hs : SameGCode g g')
    (hg : GOK g) : visited a g = visited b g' := by
  unfold visited
  rw [Machine.setMode_eq a [g] (by simpa using hg), Machine.setMode_eq b [g'] (by simpa using hs.gok hg), execSort_single, execSort_single]
  exact visitedEffect_near (withMode_near h hs) (withMode_wf a ha _) (withMode_wf b hb _) hs hg

theorem visitedAll_near {gs gs' : List GCode} (hs : List.Forall₂ SameGCode gs gs') (hg : ∀ g ∈ gs, GOK g) :
    ∀ {a b : Machine}, NearTo a b → a.WF → b.WF → visitedAll a gs = visitedAll b gs' := by
  induction hs with
  | nil => exact fun _ _ _ => rfl
  | @cons g g' gs gs' h1 _ ih =>
    intro a b h ha hb
    have hgg := hg g (by simp)
    have hp := process_near h ha hb h1 hgg
    have w1 := (path_process a ha g hgg).wf ha
    have w2 := (path_process b hb g' (h1.gok hgg)).wf hb
    unfold visitedAll
    rw [visited_near h ha hb h1 hgg]
    congr 1
    generalize a.process g = r at hp w1
    generalize b.process g' = s at hp w2
    obtain ⟨r, er⟩ := r
    obtain ⟨s, es⟩ := s
    obtain ⟨h3, h4⟩ := hp
    simp only at h3 h4 w1 w2
    subst h4
    cases er with
    | none => exact ih (fun x hx => hg x (by simp [hx])) h3 w1 w2
    | some e => rfl

/-! ## Machines that have seen more -/

/-- Levels along Z, and nothing along the other axes. -/
def along (E : List ℚ) (a : Axis) : List ℚ := if a = .Z then E else []

/-- `m` is within its range; the range of `b` is that of `m` extended to the levels `E` along Z, and to nothing else. -/
def Wider (E : List ℚ) (m b : Machine) : Prop :=
  ∀ a ∈ m.axes, (m.rangeMin.val a ≤ m.absPos.val a ∧ m.absPos.val a ≤ m.rangeMax.val a) ∧
    b.rangeMin.val a = leastOf (m.rangeMin.val a) (along E a) ∧ b.rangeMax.val a = greatestOf (m.rangeMax.val a) (along E a)

/-- Visiting the same positions keeps the extension. -/
theorem Wider.path {E : List ℚ} {m m' b b' : Machine} {ps : List Position} (h : Wider E m b) (hax : m.axes = b.axes)
    (hm : Machine.Path m ps m') (hb : Machine.Path b ps b') : Wider E m' b' := by
  intro a ha
  rw [hm.frame.axes] at ha
  obtain ⟨h1, h2, h3⟩ := h a ha
  obtain ⟨k1, k2⟩ := path_range hm a ha
  obtain ⟨l1, l2⟩ := path_range hb a (hax ▸ ha)
  refine ⟨?_, ?_, ?_⟩
  · rw [path_last hm, k1, k2]
    rcases List.mem_cons.1 (List.getLast_mem (l := m.absPos :: ps) (by simp)) with hx | hx
    · rw [hx]
      exact ⟨(leastOf_le (.inl rfl)).trans h1.1, h1.2.trans (le_greatestOf (.inl rfl))⟩
    · exact ⟨leastOf_le (.inr (List.mem_map.2 ⟨_, hx, rfl⟩)), le_greatestOf (.inr (List.mem_map.2 ⟨_, hx, rfl⟩))⟩
  · rw [l1, k1, h2, leastOf_append, leastOf_append, leastOf_comm]
  · rw [l2, k2, h3, greatestOf_append, greatestOf_append, greatestOf_comm]

/-- Only the range of the second machine matters. -/
theorem Wider.congr {E : List ℚ} {m b b' : Machine} (h : Wider E m b) (h1 : ∀ a ∈ m.axes, b.rangeMin.val a = b'.rangeMin.val a)
    (h2 : ∀ a ∈ m.axes, b.rangeMax.val a = b'.rangeMax.val a) : Wider E m b' :=
  fun a ha => ⟨(h a ha).1, (h1 a ha).symm.trans (h a ha).2.1, (h2 a ha).symm.trans (h a ha).2.2⟩

theorem Wider.all {E : List ℚ} {m b : Machine} (h : Wider E m b) (hn : NearTo m b) (hm : m.WF) (hb : b.WF) {gs gs' : List GCode}
    (hs : List.Forall₂ SameGCode gs gs') (hg : ∀ g ∈ gs, GOK g) : Wider E (m.processAll gs).1 (b.processAll gs').1 := by
  have hg' : ∀ g ∈ gs', GOK g := by
    intro g hgm
    clear h hn hm hb
    induction hs with
    | nil => cases hgm
    | @cons x y gs gs' h1 _ ih =>
      rcases List.mem_cons.1 hgm with rfl | hgm
      · exact h1.gok (hg x (by simp))
      · exact ih (fun z hz => hg z (by simp [hz])) hgm
  have h1 := path_all gs hg m hm
  have h2 := path_all gs' hg' b hb
  rw [← visitedAll_near hs hg hn hm hb] at h2
  exact h.path hn.axes h1 h2

/-! ## A cycle -/

/-- Repeated moves extend the range to where they end. -/
theorem moves_box (cs : List (Axis × ℚ)) (hnd : (cs.map Prod.fst).Nodup) (n : ℕ) (m : Machine) (hm : m.WF)
    (hb : ¬ m.BadSys) (hax : ∀ c ∈ cs, c.1 ∈ m.axes) (a : Axis) (ha : a ∈ m.axes)
    (hin : m.rangeMin.val a ≤ m.absPos.val a ∧ m.absPos.val a ≤ m.rangeMax.val a) :
    (m.moves (cs.map (fun c => (c.1, some c.2))) n).1.rangeMin.val a =
        min (m.rangeMin.val a) ((m.moves (cs.map (fun c => (c.1, some c.2))) n).1.absPos.val a) ∧
      (m.moves (cs.map (fun c => (c.1, some c.2))) n).1.rangeMax.val a =
        max (m.rangeMax.val a) ((m.moves (cs.map (fun c => (c.1, some c.2))) n).1.absPos.val a) := by
  by_cases hi : m.incremental = true
  · induction n generalizing m with
    | zero => exact ⟨(min_eq_left hin.1).symm, (max_eq_left hin.2).symm⟩
    | succ n ih =>
      have htz : ∀ a ∉ m.axes, m.target cs a = 0 := by
        intro a ha
        unfold target
        have : Position.lookup cs a = none := by
          unfold Position.lookup
          rw [Option.map_eq_none_iff, List.find?_eq_none]
          intro c hc
          simpa using fun h : c.1 = a => ha (h ▸ hax c hc)
        rw [this]; exact abs_outside m hm a ha
      have hwf := goto_wf m hm (m.target cs) htz
      have hstep : m.moves (cs.map (fun c => (c.1, some c.2))) (n + 1) =
          (m.goto (m.target cs)).moves (cs.map (fun c => (c.1, some c.2))) n := by
        rw [moves, move_ok m hm hb cs hnd hax]; rfl
      rw [hstep]
      have e1 : (m.goto (m.target cs)).rangeMin.val a = min (m.target cs a) (m.rangeMin.val a) := by
        simp only [goto]; rw [if_pos ha]
      have e2 : (m.goto (m.target cs)).rangeMax.val a = max (m.target cs a) (m.rangeMax.val a) := by
        simp only [goto]; rw [if_pos ha]
      have e3 : (m.goto (m.target cs)).absPos.val a = m.target cs a := rfl
      obtain ⟨k1, k2⟩ := ih (m.goto (m.target cs)) hwf hb hax ha
        (by rw [e1, e2, e3]; exact ⟨min_le_left _ _, le_max_left _ _⟩) hi
      obtain ⟨m', h1, -, -, -, -, h6⟩ := moves_inc cs hnd n (m.goto (m.target cs)) hwf hb hi hax
      rw [h1] at k1 k2 ⊢
      simp only at k1 k2 ⊢
      have h6 := h6 a
      have ht : m.target cs a = m.absPos.val a + (Position.lookup cs a).getD 0 := by
        unfold target
        rw [hi]
        cases Position.lookup cs a <;> simp
      rw [e3] at h6
      rw [k1, k2, e1, e2, h6]
      generalize (Position.lookup cs a).getD 0 = d at *
      have hn0 : (0 : ℚ) ≤ n := Nat.cast_nonneg n
      rw [ht]
      constructor
      · rcases le_total 0 d with hd | hd
        · have := mul_nonneg hn0 hd
          rw [min_eq_right (show m.rangeMin.val a ≤ m.absPos.val a + d by linarith [hin.1])]
        · have := mul_nonneg hn0 (neg_nonneg.2 hd)
          rw [min_comm (m.absPos.val a + d), min_assoc,
            min_eq_right (show m.absPos.val a + d + n * d ≤ m.absPos.val a + d by linarith)]
      · rcases le_total 0 d with hd | hd
        · have := mul_nonneg hn0 hd
          rw [max_comm (m.absPos.val a + d), max_assoc,
            max_eq_right (show m.absPos.val a + d ≤ m.absPos.val a + d + n * d by linarith)]
        · have := mul_nonneg hn0 (neg_nonneg.2 hd)
          rw [max_eq_right (show m.absPos.val a + d ≤ m.rangeMax.val a by linarith [hin.2])]
  · cases n with
    | zero => exact ⟨(min_eq_left hin.1).symm, (max_eq_left hin.2).symm⟩
    | succ n =>
      rw [moves_abs m hm hb (by simpa using hi) cs hnd hax n]
      simp only [goto]
      rw [if_pos ha, if_pos ha]
      exact ⟨min_comm _ _, max_comm _ _⟩

end Pygcode
