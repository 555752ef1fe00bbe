import Verif.Props.Comments
import Verif.Props.LinePrint

/-!
# Property C14, continued: what is read of the lines whose comments are not harmless

With C14_brackets_partial this covers every line: a line without `%` and `;` has its brackets removed; a line
with `;` but without `%` has what is before the first `;` read, brackets included; and of a line with `%`
what is before the first `%` is read likewise.
-/

namespace Pygcode.Props
open Pygcode Pygcode.Spec

/-- The text that is read of a line or of its part before `%`: all before the first `;`, with the contents of brackets
(trailing blanks aside), or else, without any `;`, all outside complete brackets. -/
inductive ReadPart : List Char → List Char → Prop
  | semicolon {a c b} : ';' ∉ a → RStripped a b → ReadPart (a ++ ';' :: c) b
  | brackets {a b cs} : ';' ∉ a → Bracketed a b cs → ReadPart a b

/-! ## Proof -/

theorem rstripped_exists (a : List Char) : ∃ b, RStripped a b := by
  refine ⟨(a.reverse.dropWhile isSpace).reverse, (a.reverse.takeWhile isSpace).reverse, ?_, ?_, ?_⟩
  · rw [← List.reverse_append, List.takeWhile_append_dropWhile, List.reverse_reverse]
  · intro x hx
    exact blank_takeWhile a.reverse x (List.mem_reverse.1 hx)
  · intro x hx
    rw [List.getLast?_reverse] at hx
    have := List.head?_dropWhile_not isSpace a.reverse
    rw [Option.mem_def.1 hx] at this
    simpa using this

theorem first_unique {k : Char} {a a' c c' : List Char} (ha : k ∉ a) (ha' : k ∉ a') (h : a ++ k :: c = a' ++ k :: c') : a = a' := by
  have key : ∀ a c : List Char, k ∉ a → (a ++ k :: c).takeWhile (· ≠ k) = a := by
    intro a c ha
    rw [List.takeWhile_append_of_pos (by intro x hx; simpa using fun h : x = k => ha (h ▸ hx))]
    simp
  rw [← key a c ha, h, key a' c' ha']

theorem readPart_split {t b : List Char} (hn : '\n' ∉ t) (h : ReadPart t b) : (splitLine t).1 = b := by
  cases h with
  | @semicolon a c _ ha hb =>
    obtain ⟨blk, x, h1, h2, -⟩ := C10_semicolon a c ha (by
      intro h; apply hn
      simp only [List.mem_append, List.mem_cons] at h ⊢
      tauto)
    rw [h1]
    exact rstripped_unique h2 hb
  | brackets ha hb => rw [C11_brackets t b _ ha hn hb]

/-- **C14** (exact, with `%`): what is before the first `%` is read, wherever the `%` is; all from it on is the macro. -/
theorem C14_percent_read (a m b : List Char) (hp : '%' ∉ a) (hn : '\n' ∉ a ++ m) (h : ReadPart a b) :
    effect (a ++ '%' :: m) = (Block.ofText b).map (fun x => (x, some ('%' :: m))) := by
  have hs := C12_macro a m hp hn
  have hb := readPart_split (t := a) (fun h => hn (List.mem_append_left _ h)) h
  unfold effect Line.ofText Line.parts
  rw [hs]
  simp only [hb]
  cases Block.ofText b <;> rfl

/-- **C14** (exact, without `%`): `t` is the line, `u` the line without its trailing blanks. -/
theorem C14_plain_read (t u b : List Char) (hp : '%' ∉ t) (hn : '\n' ∉ t) (hu : RStripped t u) (h : ReadPart u b) :
    effect t = (Block.ofText b).map (fun x => (x, none)) := by
  obtain ⟨w, rfl, hw, hl⟩ := hu
  have hs := C12_plain u w (fun h => hp (List.mem_append_left _ h)) (fun h => hn (List.mem_append_left _ h)) hw hl
  have hb := readPart_split (t := u) (fun h => hn (List.mem_append_left _ h)) h
  unfold effect Line.ofText Line.parts
  rw [hs]
  simp only [hb]
  cases Block.ofText b <;> rfl

/-- **C14** (exact, total): each text has exactly one part that is read. -/
theorem C14_part (t : List Char) : ∃ b, ReadPart t b ∧ ∀ b', ReadPart t b' → b' = b := by
  by_cases hs : ';' ∈ t
  · obtain ⟨a, c, rfl, ha⟩ := first_split hs
    obtain ⟨b, hb⟩ := rstripped_exists a
    refine ⟨b, .semicolon ha hb, fun b' h' => ?_⟩
    generalize ht : a ++ ';' :: c = t at h'
    cases h' with
    | @semicolon a' c' _ ha' hb' =>
      obtain rfl := first_unique ha ha' ht
      exact rstripped_unique hb' hb
    | brackets ha' _ => exact absurd (by rw [← ht]; simp) ha'
  · obtain ⟨b, cs, hb, hu⟩ := C11_total t
    refine ⟨b, .brackets hs hb, fun b' h' => ?_⟩
    cases h' with
    | semicolon _ _ => exact absurd (by simp) hs
    | brackets _ hb' => exact (hu _ _ hb').1

/-- The comment `X5` is read, the words after it are lost. -/
example : effect "G1 (X5 %) Y3".toList = (Block.ofText "G1 (X5 ".toList).map (fun b => (b, some "%) Y3".toList)) :=
  C14_percent_read "G1 (X5 ".toList ") Y3".toList _ (by decide) (by decide)
    (.brackets (cs := []) (by decide) (.plain (by
      intro a b he h
      have : ')' ∈ "G1 (X5 ".toList := by rw [he]; simp [h]
      revert this; decide)))

/-- Both comments `X5` and `X6` are read. -/
example : effect "G1 (X5) Y3 (X6;) Z1".toList = (Block.ofText "G1 (X5) Y3 (X6".toList).map (fun b => (b, none)) :=
  C14_plain_read _ "G1 (X5) Y3 (X6;) Z1".toList _ (by decide) (by decide) ⟨[], by simp, by simp [Blank], by decide⟩
    (.semicolon (a := "G1 (X5) Y3 (X6".toList) (c := ") Z1".toList) (by decide) ⟨[], by simp, by simp [Blank], by decide⟩)

example : ∀ b, ReadPart "G1 (X5) ; Y2".toList b ↔ b = "G1 (X5)".toList := by
  have h : ReadPart "G1 (X5) ; Y2".toList "G1 (X5)".toList :=
    .semicolon (a := "G1 (X5) ".toList) (c := " Y2".toList) (by decide) ⟨" ".toList, rfl, blank_space, by decide⟩
  obtain ⟨b, -, hu⟩ := C14_part "G1 (X5) ; Y2".toList
  exact fun b' => ⟨fun h' => (hu _ h').trans (hu _ h).symm, fun e => e ▸ h⟩

end Pygcode.Props
