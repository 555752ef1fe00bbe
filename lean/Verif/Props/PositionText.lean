import Verif.Model.Repr
import Verif.Props.NormArc

/-!
# What a position shows (C115)
-/

namespace Pygcode
open Props Machine Spec

/-- **C115**: one word for each axis, in the order of the letters, with the coordinate of the axis. -/
theorem C115_words (p : Position) : (p.words.map Word.letter).Pairwise (· < ·) ∧
    ∀ w, w ∈ p.words ↔ ∃ a ∈ p.axes, w = ⟨a.letter, .num (p.val a)⟩ := by
  constructor
  · unfold Position.words
    rw [List.map_map]
    have h : Axis.sorted.Pairwise (fun a b => a.letter < b.letter) := by decide
    exact List.pairwise_map.2 (h.filter _)
  · intro w
    unfold Position.words
    simp only [List.mem_map, List.mem_filter, decide_eq_true_eq]
    constructor
    · rintro ⟨a, ⟨-, h⟩, rfl⟩; exact ⟨a, h, rfl⟩
    · rintro ⟨a, h, rfl⟩
      exact ⟨a, ⟨by cases a <;> decide, h⟩, rfl⟩

theorem axis_letter_flt (a : Axis) : kindOf a.letter = some .flt ∧ a.letter ≠ 'O' ∧ a.letter ≠ 'T' := by
  cases a <;> decide

/-- The position with rounded coordinates. -/
def Position.rounded (p : Position) : Position := { p with val := fun a => roundPlaces 3 (p.val a) }

theorem coordText_rounded (p : Position) : p.rounded.coordText = p.coordText := by
  unfold Position.coordText Position.words
  rw [List.map_map, List.map_map]
  congr 1
  apply List.map_congr_left
  intro a _
  exact str_printed _ (axis_letter_flt a).1 _

theorem read_coordText (p : Position) (h : ∀ a ∈ p.axes, |p.val a| < 999.9995) : text2words p.coordText = .ok p.rounded.words := by
  rw [← coordText_rounded]
  have hw : ∀ w ∈ p.rounded.words, PlainWord w := by
    intro w hw
    obtain ⟨a, ha, rfl⟩ := ((C115_words _).2 w).1 hw
    exact plain_printed _ (axis_letter_flt a).1 (axis_letter_flt a).2.1 (axis_letter_flt a).2.2 _ (h a ha)
  exact (C03_remove_whitespace _ (fun w hw' => (hw w hw').1) (fun w hw' => (hw w hw').2.1)).1

theorem near_rounded (p : Position) (a : Axis) : |p.rounded.val a - p.val a| ≤ 1 / 2000 := by
  have := roundHalfEven_err (p.val a * 10 ^ 3)
  show |roundPlaces 3 (p.val a) - p.val a| ≤ _
  unfold roundPlaces
  rw [abs_le] at this ⊢
  norm_num at this ⊢
  constructor <;> linarith [this.1, this.2]

theorem joinWith_intercalate (sep : List Char) (l : List (List Char)) : joinWith sep l = sep.intercalate l := by
  induction l with
  | nil => rfl
  | cons x l ih =>
    cases l with
    | nil => simp [joinWith, List.intercalate]
    | cons y r =>
      rw [joinWith, ih]
      simp [List.intercalate, List.intersperse]

/-- **C115**: the coordinates shown, below 999.9995, are read as the words of a position whose coordinates are within half a
thousandth; there is one blank between two of them, and no other. -/
theorem C115_read (p : Position) (h : ∀ a ∈ p.axes, |p.val a| < 999.9995) :
    ∃ (q : Position) (shown : List Char), p.repr = "<Position: ".toList ++ shown ++ ">".toList ∧
      q.axes = p.axes ∧ q.unit = p.unit ∧ (∀ a, |q.val a - p.val a| ≤ 1 / 2000) ∧ text2words shown = .ok q.words ∧
      shown = " ".toList.intercalate (q.words.map Word.str) :=
  ⟨p.rounded, p.coordText, rfl, rfl, rfl, near_rounded p, read_coordText p h, by
    rw [← coordText_rounded]
    exact joinWith_intercalate _ _⟩

theorem words_axes {p q : Position} (h : p.words = q.words) : p.axes = q.axes ∧ ∀ a ∈ p.axes, p.val a = q.val a := by
  have key : ∀ {p q : Position}, p.words = q.words → ∀ a ∈ p.axes, a ∈ q.axes ∧ p.val a = q.val a := by
    intro p q h a ha
    have h1 := ((C115_words p).2 _).2 ⟨a, ha, rfl⟩
    rw [h] at h1
    obtain ⟨b, hb, e⟩ := ((C115_words q).2 _).1 h1
    simp only [Word.mk.injEq, Val.num.injEq] at e
    have : a = b := by
      have := e.1
      revert this
      cases a <;> cases b <;> decide
    subst this
    exact ⟨hb, e.2⟩
  refine ⟨Finset.ext fun a => ⟨fun h1 => (key h a h1).1, fun h1 => (key h.symm a h1).1⟩, fun a ha => (key h a ha).2⟩

/-- **C115**: positions that look the same have the same axes, and coordinates within a thousandth of each other. -/
theorem C115_same (p q : Position) (hp : ∀ a ∈ p.axes, |p.val a| < 999.9995) (hq : ∀ a ∈ q.axes, |q.val a| < 999.9995)
    (h : p.repr = q.repr) : p.axes = q.axes ∧ ∀ a ∈ p.axes, |p.val a - q.val a| ≤ 1 / 1000 := by
  unfold Position.repr at h
  have h1 : p.coordText = q.coordText := List.append_cancel_right (by
    rw [List.append_assoc, List.append_assoc] at h
    exact List.append_cancel_left h)
  have h2 := read_coordText p hp
  rw [h1, read_coordText q hq] at h2
  obtain ⟨h3, h4⟩ := words_axes (Except.ok.inj h2).symm
  refine ⟨h3, fun a ha => ?_⟩
  have h5 := near_rounded p a
  have h6 := near_rounded q a
  rw [h4 a ha] at h5
  rw [abs_le] at h5 h6 ⊢
  constructor <;> linarith [h5.1, h5.2, h6.1, h6.2]

/-- **C115**: and positions with the same axes and coordinates look the same; the unit is not shown. -/
theorem C115_shown (p q : Position) (h : p.axes = q.axes) (hv : ∀ a ∈ p.axes, p.val a = q.val a) : p.repr = q.repr := by
  have : p.words = q.words := by
    unfold Position.words
    rw [← h]
    apply List.map_congr_left
    intro a ha
    rw [hv a (by simpa using (List.mem_filter.1 ha).2)]
  unfold Position.repr Position.coordText
  rw [this]

/-- **C115**: positions that are equal for `==` look the same. -/
theorem C115_eq (p q : Position) (h : p.eq q = true) : p.repr = q.repr := by
  unfold Position.eq at h
  split_ifs at h with h1 h2
  · exact C115_shown p q h1 (of_decide_eq_true h)
  · exact C115_shown p q h1 (of_decide_eq_true h)

/-- **C115**: states that look the same have the same coordinate system selected, and offsets within a thousandth of each
other. -/
theorem C115_state (s t : State) (hs : s.cur ≤ 9) (ht : t.cur ≤ 9)
    (hp : ∀ a ∈ s.offset.axes, |s.offset.val a| < 999.9995) (hq : ∀ a ∈ t.offset.axes, |t.offset.val a| < 999.9995)
    (h : s.repr = t.repr) : s.cur = t.cur ∧ s.offset.axes = t.offset.axes ∧
      ∀ a ∈ s.offset.axes, |s.offset.val a - t.offset.val a| ≤ 1 / 1000 := by
  have hc : ∀ c : Fin 10, ∀ d : Fin 10,
      (if c.val = 0 then chars! "None" else Nat.toDigits 10 c.val).head? = (if d.val = 0 then chars! "None" else Nat.toDigits 10 d.val).head? →
      c = d := by decide +kernel
  have hn : ∀ c : Fin 10, (if c.val = 0 then chars! "None" else Nat.toDigits 10 c.val) ≠ [] := by decide +kernel
  unfold State.repr at h
  simp only [List.append_assoc] at h
  have h1 := List.append_cancel_left h
  have hcd : s.cur = t.cur := by
    have := congrArg List.head? h1
    rw [List.head?_append_of_ne_nil _ (hn ⟨s.cur, by omega⟩), List.head?_append_of_ne_nil _ (hn ⟨t.cur, by omega⟩)] at this
    exact congrArg Fin.val (hc ⟨s.cur, by omega⟩ ⟨t.cur, by omega⟩ this)
  rw [hcd] at h1
  have h2 := List.append_cancel_right (List.append_cancel_left (List.append_cancel_left h1))
  exact ⟨hcd, C115_same _ _ hp hq h2⟩

/-- `X1.5 Y-2.0004` with an unused `Z`. -/
def shownPosition : Position := ⟨{.X, .Y}, .mm, fun a => if a = .X then 3 / 2 else -2.0004⟩

example : shownPosition.repr = "<Position: X1.5 Y-2>".toList ∧
    (State.new {.X, .Z}).repr = "<State: coord_sys[1]; offset=<Position: X0 Z0>>".toList := by decide +kernel

example : ∃ (q : Position) (shown : List Char), shownPosition.repr = "<Position: ".toList ++ shown ++ ">".toList ∧
    q.axes = {.X, .Y} ∧ q.unit = .mm ∧ (∀ a, |q.val a - shownPosition.val a| ≤ 1 / 2000) ∧ text2words shown = .ok q.words ∧
    shown = " ".toList.intercalate (q.words.map Word.str) :=
  C115_read _ (by decide +kernel)

example : (shownPosition.words.map Word.letter).Pairwise (· < ·) ∧ shownPosition.words.length = 2 :=
  ⟨(C115_words _).1, by decide +kernel⟩

/-- An inch more is not shown as such: only the numbers count, for `==` and for what is shown. -/
example : shownPosition.repr = { shownPosition with unit := .inch }.repr :=
  C115_eq _ _ (by decide +kernel)

example : shownPosition.repr = { shownPosition with val := fun a : Axis => if a = Axis.Y then -2.0004 else 3 / 2 }.repr :=
  C115_shown _ _ rfl (by decide +kernel)

/-- Positions 0.0004 apart look the same. -/
example : |shownPosition.val .Y - (-2)| ≤ 1 / 1000 :=
  (C115_same shownPosition { shownPosition with val := fun a => if a = .X then 3 / 2 else -2 } (by decide +kernel)
    (by decide +kernel) (by decide +kernel)).2 .Y (by decide)

example : |shownPosition.val .Y - (-2)| ≤ 1 / 1000 :=
  (C115_state ⟨.keyList, 3, shownPosition⟩ ⟨.keyList, 3, { shownPosition with val := fun a => if a = .X then 3 / 2 else -2 }⟩
    (by decide) (by decide) (by decide +kernel) (by decide +kernel) (by decide +kernel)).2.2 .Y (by decide)

end Pygcode
