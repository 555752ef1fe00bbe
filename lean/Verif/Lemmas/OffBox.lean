import Verif.Lemmas.Off
import Verif.Props.MachineMove

/-!
# Ranges of machines that differ in where they are
-/

namespace Pygcode
open Props Machine Spec

/-- Positions visited, one by one, at most `τ` apart along each axis. -/
def ApartBy (τ : ℚ) (ps qs : List Position) : Prop := List.Forall₂ (fun p q => ∀ x, |p.val x - q.val x| ≤ τ) ps qs

variable {τ : ℚ}

theorem ApartBy.append {ps qs ps' qs' : List Position} (h : ApartBy τ ps qs) (h' : ApartBy τ ps' qs') : ApartBy τ (ps ++ ps') (qs ++ qs') :=
  List.rel_append h h'

theorem visitedMoves_off (hτ : 0 ≤ τ) (cs : Coords) (n : ℕ) :
    ∀ {a b : Machine}, Off τ a b → a.WF → b.WF → ApartBy τ (visitedMoves a cs n) (visitedMoves b cs n) := by
  induction n with
  | zero => exact fun _ _ _ => .nil
  | succ n ih =>
    intro a b h ha hb
    have hm := move_off hτ h ha hb cs
    have w1 := move_wf a ha cs
    have w2 := move_wf b hb cs
    unfold visitedMoves
    generalize a.move cs = r at hm w1
    generalize b.move cs = s at hm w2
    obtain ⟨r, er⟩ := r
    obtain ⟨s, es⟩ := s
    obtain ⟨h1, h2⟩ := hm
    simp only at h1 h2 w1 w2
    subst h2
    cases er with
    | none => exact .cons h1.dist (ih h1 w1 w2)
    | some e => exact .nil

theorem visitedEffect_off (hτ : 0 ≤ τ) {a b : Machine} (h : Off τ a b) (ha : a.WF) (hb : b.WF) (g : GCode) :
    ApartBy τ (visitedEffect a g) (visitedEffect b g) := by
  unfold visitedEffect
  cases g.cls.proc with
  | nothing => exact .nil
  | motion => rw [h.axes]; exact visitedMoves_off hτ _ _ h ha hb
  | rapid => rw [h.axes]; exact visitedMoves_off hτ _ _ h ha hb
  | cancel => exact .nil
  | canned =>
    have hc : a.cannedCoords g = b.cannedCoords g := by
      unfold cannedCoords; rw [h.axes, h.mode]
    simp only [hc]
    cases b.cannedCoords g with
    | error e => exact .nil
    | ok cs =>
      simp only
      cases loopCount g with
      | error e => exact .nil
      | ok n => exact visitedMoves_off hτ cs n h ha hb

theorem visited_off (hτ : 0 ≤ τ) {a b : Machine} (h : Off τ a b) (ha : a.WF) (hb : b.WF) (g : GCode) (hg : GOK g) :
    ApartBy τ (visited a g) (visited b g) := by
  unfold visited
  rw [Machine.setMode_eq a [g] (by simpa using hg), Machine.setMode_eq b [g] (by simpa using hg), execSort_single]
  have hw : Off τ (a.withMode (setIn a.mode g)) (b.withMode (setIn b.mode g)) := by
    refine ⟨h.axes, h.ignore, ?_, ?_, h.unit, h.dist⟩
    · show setIn a.mode g = setIn b.mode g
      rw [h.mode]
    · unfold withMode; rw [h.mode, h.state]
  exact visitedEffect_off hτ hw (withMode_wf a ha _) (withMode_wf b hb _) g

theorem visitedAll_off (hτ : 0 ≤ τ) {gs : List GCode} (hg : ∀ g ∈ gs, GOK g) :
    ∀ {a b : Machine}, Off τ a b → a.WF → b.WF → ApartBy τ (visitedAll a gs) (visitedAll b gs) := by
  induction gs with
  | nil => exact fun _ _ _ => .nil
  | cons g gs ih =>
    intro a b h ha hb
    have hgg := hg g (by simp)
    have hp := process_off hτ h ha hb g hgg
    have w1 := (path_process a ha g hgg).wf ha
    have w2 := (path_process b hb g hgg).wf hb
    unfold visitedAll
    refine (visited_off hτ h ha hb g hgg).append ?_
    generalize a.process g = r at hp w1
    generalize b.process g = s at hp w2
    obtain ⟨r, er⟩ := r
    obtain ⟨s, es⟩ := s
    obtain ⟨h3, h4⟩ := hp
    simp only at h3 h4 w1 w2
    subst h4
    cases er with
    | none => exact ih (fun x hx => hg x (by simp [hx])) h3 w1 w2
    | some e => exact .nil

theorem visitedStr_off (hτ : 0 ≤ τ) {a b : Machine} (h : Off τ a b) (ha : a.WF) (hb : b.WF) (t : List Char) :
    ApartBy τ (Call.visitedAll a [.str t]) (Call.visitedAll b [.str t]) := by
  simp only [Call.visitedAll, List.append_nil, Call.visited]
  cases hl : Line.ofText t with
  | error e => exact .nil
  | ok l =>
    simp only
    unfold Call.visitedBlock
    rw [h.modal]
    cases hx : b.modalGcode l.block.modalParams with
    | error e => exact .nil
    | ok og =>
      exact visitedAll_off hτ (sort_gok (line_block_ok hl).ok (fun g hog => modalGcode_gok (by rw [hx, hog]))) h ha hb

/-- What a path does to the range. -/
theorem path_grows {m m' : Machine} {ps : List Position} (h : Machine.Path m ps m') (a : Axis) (ha : a ∈ m.axes) :
    m'.rangeMin.val a ≤ m.rangeMin.val a ∧ m.rangeMax.val a ≤ m'.rangeMax.val a ∧
      (m.rangeMin.val a ≤ m.absPos.val a ∧ m.absPos.val a ≤ m.rangeMax.val a →
        m'.rangeMin.val a ≤ m'.absPos.val a ∧ m'.absPos.val a ≤ m'.rangeMax.val a) := by
  have h1 := path_low h a ha
  have h2 := path_high h a ha
  have h3 := path_last h
  refine ⟨h1.2 (.inl rfl), h2.2 (.inl rfl), fun hw => ?_⟩
  rcases List.mem_cons.1 (List.getLast_mem (List.cons_ne_nil m.absPos ps)) with e | e
  · rw [h3, e]
    exact ⟨(h1.2 (.inl rfl)).trans hw.1, hw.2.trans (h2.2 (.inl rfl))⟩
  · rw [h3]
    exact ⟨h1.2 (.inr ⟨_, e, rfl⟩), h2.2 (.inr ⟨_, e, rfl⟩)⟩

theorem path_str {m : Machine} (hm : m.WF) (t : List Char) :
    Machine.Path m (Call.visitedAll m [.str t]) (m.processStr t).1 := by
  have hp := path_calls [.str t] m hm (by simp [Call.OK])
  have hr : Call.runAll m [.str t] = (m.processStr t).1 := by simp [Call.runAll, Call.run]
  rwa [hr] at hp

theorem apart_right {ps qs : List Position} (h : ApartBy τ ps qs) {q : Position} (hq : q ∈ qs) :
    ∃ p ∈ ps, ∀ x, |p.val x - q.val x| ≤ τ := by
  induction h with
  | nil => cases hq
  | cons h1 _ ih =>
    rcases List.mem_cons.1 hq with rfl | hq
    · exact ⟨_, by simp, h1⟩
    · obtain ⟨p, hp, h⟩ := ih hq
      exact ⟨p, by simp [hp], h⟩

/-- Positions that are not far apart extend the range not much more. -/
theorem apart_box {a a' b b' : Machine} {ps qs : List Position} (ha : Machine.Path a ps a') (hb : Machine.Path b qs b')
    (h : ApartBy τ ps qs) (x : Axis) (hx : x ∈ a.axes) (hx' : x ∈ b.axes) :
    min (b.rangeMin.val x) (a'.rangeMin.val x - τ) ≤ b'.rangeMin.val x ∧
      b'.rangeMax.val x ≤ max (b.rangeMax.val x) (a'.rangeMax.val x + τ) := by
  constructor
  · rcases (path_low hb x hx').1 with e | ⟨q, hq, e⟩
    · rw [e]; exact min_le_left _ _
    · obtain ⟨p, hp, hd⟩ := apart_right h hq
      have h1 := (path_low ha x hx).2 (.inr ⟨p, hp, rfl⟩)
      have := abs_le.1 (hd x)
      rw [e]
      exact (min_le_right _ _).trans (by linarith [this.2])
  · rcases (path_high hb x hx').1 with e | ⟨q, hq, e⟩
    · rw [e]; exact le_max_left _ _
    · obtain ⟨p, hp, hd⟩ := apart_right h hq
      have h1 := (path_high ha x hx).2 (.inr ⟨p, hp, rfl⟩)
      have := abs_le.1 (hd x)
      rw [e]
      exact le_trans (by linarith [this.1]) (le_max_right _ _)

theorem lines_grow (ts : List (List Char)) : ∀ {m : Machine}, m.WF → ∀ a ∈ m.axes,
    (readLines m ts).1.rangeMin.val a ≤ m.rangeMin.val a ∧ m.rangeMax.val a ≤ (readLines m ts).1.rangeMax.val a := by
  induction ts with
  | nil => exact fun _ a _ => ⟨le_refl _, le_refl _⟩
  | cons t ts ih =>
    intro m hm a ha
    have hp := path_str hm t
    obtain ⟨h1, h2, -⟩ := path_grows hp a ha
    have hwf := hp.wf hm
    have hax := hp.frame.axes
    unfold readLines Machine.andThen
    generalize m.processStr t = r at h1 h2 hwf hax
    obtain ⟨r, _ | e⟩ := r
    · obtain ⟨k1, k2⟩ := ih hwf a (by rw [hax]; exact ha)
      exact ⟨k1.trans h1, h2.trans k2⟩
    · exact ⟨h1, h2⟩

/-- The same lines, read by machines that are `τ` apart: the second one records nothing that is farther than `τ` from what the
first one does. -/
theorem lines_offbox (hτ : 0 ≤ τ) (ts : List (List Char)) : ∀ {a b : Machine}, Off τ a b → Sound a → Sound b → ∀ x ∈ a.axes,
    min (b.rangeMin.val x) ((readLines a ts).1.rangeMin.val x - τ) ≤ (readLines b ts).1.rangeMin.val x ∧
      (readLines b ts).1.rangeMax.val x ≤ max (b.rangeMax.val x) ((readLines a ts).1.rangeMax.val x + τ) := by
  induction ts with
  | nil => exact fun _ _ _ x _ => ⟨min_le_left _ _, le_max_left _ _⟩
  | cons t ts ih =>
    intro a b h ha hb x hx
    have h1 := str_off hτ h ha.wf hb.wf t
    have s1 := ha.str t
    have s2 := hb.str t
    have p1 := path_str ha.wf t
    have hbox := apart_box p1 (path_str hb.wf t) (visitedStr_off hτ h ha.wf hb.wf t) x hx (h.axes ▸ hx)
    have hax := p1.frame.axes
    unfold readLines andThen
    generalize a.processStr t = r at h1 s1 hbox hax
    generalize b.processStr t = s at h1 s2 hbox
    obtain ⟨r, er⟩ := r
    obtain ⟨s, es⟩ := s
    obtain ⟨h3, h4⟩ := h1
    simp only at h3 h4 s1 s2 hbox hax
    subst h4
    cases er with
    | none =>
      have hx' : x ∈ r.axes := by rw [hax]; exact hx
      obtain ⟨k1, k2⟩ := ih h3 s1 s2 x hx'
      obtain ⟨g1, g2⟩ := lines_grow ts s1.wf x hx'
      simp only
      constructor
      · refine le_trans (le_min ((min_le_min_left _ ?_).trans hbox.1) (min_le_right _ _)) k1
        linarith
      · refine k2.trans (max_le (hbox.2.trans (max_le_max_left _ ?_)) (le_max_right _ _))
        linarith
    | some e => exact hbox

end Pygcode
