import Verif.Props.Lines
import Verif.Model.GCodes

/-!
# Property C14: what is written inside a comment does not change the meaning of a line

The code violates the general statement; `C14_refuted` has the witnesses, the `_partial` theorems
say which comment contents are harmless.
-/

namespace Pygcode.Props
open Pygcode Pygcode.Spec

/-- Every `(` of the text is closed within the text. -/
def Closed (a : List Char) : Prop := ∀ x y, a = x ++ '(' :: y → ')' ∈ y

/-- The effect of a line: its block and its macro, or the error. -/
def effect (t : List Char) : Except Err (Block × Option (List Char)) :=
  (Line.ofText t).map (fun l => (l.block, l.macro?))

/-- **C14** as stated in the property list: replacing the content of a bracket or semicolon
comment never changes the effect of the line. -/
def C14_statement : Prop :=
  (∀ a c c' rest, Closed a → ')' ∉ c → ')' ∉ c' → '\n' ∉ a ++ c ++ c' ++ rest →
    '%' ∉ a → ';' ∉ a →
    effect (a ++ '(' :: (c ++ ')' :: rest)) = effect (a ++ '(' :: (c' ++ ')' :: rest))) ∧
  (∀ a c c', '%' ∉ a → '\n' ∉ a ++ c ++ c' →
    effect (a ++ ';' :: c) = effect (a ++ ';' :: c'))

/-- A `%` inside brackets: the comment's text is executed (`X5` becomes the target). -/
theorem C14_percent_witness :
    effect "G1 (X5 %) Y3".toList =
      (Block.ofText "G1 X5".toList).map (fun b => (b, some "%) Y3".toList)) := by decide +kernel

/-- A `;` inside brackets: likewise. -/
theorem C14_semicolon_witness :
    effect "G1 (X5 ;) Y3".toList = (Block.ofText "G1 X5".toList).map (fun b => (b, none)) := by
  decide +kernel

/-- Both kinds of comment on one line: the bracket comment is executed. -/
theorem C14_mixed_witness :
    effect "G1 (X5) Y3 ; done".toList =
      (Block.ofText "G1 X5 Y3".toList).map (fun b => (b, none)) := by decide +kernel

/-- **C14** is violated by the code. -/
theorem C14_refuted : ¬ C14_statement := by
  intro h
  have h1 := h.1 "G1 ".toList "X5 ;".toList "X5".toList " Y3".toList
    (by intro x y he
        exfalso
        have : '(' ∈ "G1 ".toList := by rw [he]; simp
        revert this; decide)
    (by decide) (by decide) (by decide) (by decide) (by decide)
  revert h1; decide +kernel

/-! ## What is harmless -/

theorem closed_scan {a blk : List Char} {cs : List (List Char)} (h : Bracketed a blk cs)
    (hc : Closed a) (s : List Char) :
    bracketScan none (a ++ s) = (blk ++ (bracketScan none s).1, cs ++ (bracketScan none s).2) := by
  induction h with
  | @plain t h =>
    have hno : '(' ∉ t := by
      intro hm
      obtain ⟨x, y, rfl, -⟩ := first_split hm
      exact h x y rfl (hc x y rfl)
    simpa using bracketScan_none_app t s hno
  | @span a c rest blk cs ha hcc hr ih =>
    have hcl : Closed rest := by
      intro x y he
      subst he
      have := hc (a ++ '(' :: (c ++ ')' :: x)) y (by simp)
      exact this
    rw [List.append_assoc, bracketScan_none_app _ _ ha, List.cons_append, List.append_assoc,
      List.cons_append, bracketScan, if_pos rfl, bracketScan_some_closed _ _ _ hcc, ih hcl]
    simp

theorem splitLine_no_semi_block {t : List Char} (hs : ';' ∉ t) (hn : '\n' ∉ t) :
    (splitLine t).1 = (bracketScan none t).1 := by
  obtain ⟨blk, cs, h, -⟩ := C11_total t
  rw [C11_brackets t blk cs hs hn h, bracketed_scan h]

theorem block_brackets {a c rest : List Char} (ha : Closed a) (hc : ')' ∉ c)
    (hs : ';' ∉ a ++ c ++ rest) (hn : '\n' ∉ a ++ c ++ rest) :
    (splitLine (a ++ '(' :: (c ++ ')' :: rest))).1 =
      (bracketScan none a).1 ++ (bracketScan none rest).1 := by
  have hs' : ';' ∉ a ++ '(' :: (c ++ ')' :: rest) := by
    intro h; apply hs; simpa using h
  have hn' : '\n' ∉ a ++ '(' :: (c ++ ')' :: rest) := by
    intro h; apply hn; simpa using h
  rw [splitLine_no_semi_block hs' hn']
  obtain ⟨blk, cs, h, -⟩ := C11_total a
  rw [closed_scan h ha, bracketed_scan h, bracketScan, if_pos rfl,
    bracketScan_some_closed _ _ _ hc]

theorem effect_congr {t t' : List Char} {b m b' m'} (h : lineSplit t = some (b, m))
    (h' : lineSplit t' = some (b', m')) (hm : m = m') (hb : (splitLine b).1 = (splitLine b').1) :
    effect t = effect t' := by
  subst hm
  unfold effect Line.ofText Line.parts
  rw [h, h']
  simp only [hb]
  cases Block.ofText (splitLine b').1 <;> rfl

/-- **C14** (partial): bracket comments are harmless as long as neither they nor the rest of the
line contain `;`, and the comment does not contain `%` (and, of course, no `)`).
Missing: contents with `%` or `;`, and lines with both kinds of comment, where the code does read
the comment (see the witnesses above). -/
theorem C14_brackets_partial (a c c' rest : List Char) (ha : Closed a) (hp : ')' ∉ c ++ c')
    (hn : '\n' ∉ a ++ c ++ c' ++ rest) (hs : ';' ∉ a ++ c ++ c' ++ rest) (hm : '%' ∉ a ++ c ++ c') :
    effect (a ++ '(' :: (c ++ ')' :: rest)) = effect (a ++ '(' :: (c' ++ ')' :: rest)) := by
  simp only [List.mem_append, not_or] at hp hn hs hm
  obtain ⟨⟨⟨hna, hnc⟩, hnc'⟩, hnr⟩ := hn
  obtain ⟨⟨⟨hsa, hsc⟩, hsc'⟩, hsr⟩ := hs
  obtain ⟨⟨hma, hmc⟩, hmc'⟩ := hm
  -- split `rest` into what belongs to the block text and the macro
  obtain ⟨r, m, hr, hpr, hsome, hnone⟩ := C12_split rest hnr
  have key : ∀ d : List Char, '%' ∉ d → '\n' ∉ d →
      lineSplit (a ++ '(' :: (d ++ ')' :: rest)) = some (a ++ '(' :: (d ++ ')' :: r), m) := by
    intro d hmd hnd
    cases hmm : m with
    | some x =>
      obtain ⟨hx, he⟩ := hsome x hmm
      obtain ⟨y, rfl⟩ : ∃ y, x = '%' :: y := by
        cases x with
        | nil => cases hx
        | cons z y => simp at hx; exact ⟨y, by rw [hx]⟩
      have := C12_macro (a ++ '(' :: (d ++ ')' :: r)) y (by simp [hma, hmd, hpr]) (by
        rw [he] at hnr
        simp only [List.mem_append, List.mem_cons, not_or] at hnr ⊢
        exact ⟨⟨hna, by decide, hnd, by decide, hnr.1⟩, hnr.2.2⟩)
      rw [← this, he]
      simp
    | none =>
      obtain ⟨w, he, hw, hl⟩ := hnone hmm
      have := C12_plain (a ++ '(' :: (d ++ ')' :: r)) w (by simp [hma, hmd, hpr]) (by
        rw [he] at hnr
        simp only [List.mem_append, List.mem_cons, not_or] at hnr ⊢
        exact ⟨hna, by decide, hnd, by decide, hnr.1⟩) hw (by
          intro x hx
          cases r with
          | nil =>
            simp only [List.getLast?_append, List.getLast?_cons, Option.mem_def] at hx
            simp at hx
            subst hx; decide
          | cons z r =>
            apply hl
            simpa [List.getLast?_append, List.getLast?_cons] using hx)
      rw [← this, he]
      simp
  have hsub : ∀ {z}, z ∉ rest → z ∉ r := by
    intro z hz hin
    apply hz
    cases hmm : m with
    | some x => rw [(hsome x hmm).2]; simp [hin]
    | none => obtain ⟨w, he, -⟩ := hnone hmm; rw [he]; simp [hin]
  refine effect_congr (key c hmc hnc) (key c' hmc' hnc') rfl ?_
  rw [block_brackets ha hp.1 (by simp [hsa, hsc, hsub hsr]) (by simp [hna, hnc, hsub hnr]),
    block_brackets ha hp.2 (by simp [hsa, hsc', hsub hsr]) (by simp [hna, hnc', hsub hnr])]

/-- **C14** (partial): the content of a semicolon comment is harmless unless it contains `%`. -/
theorem C14_semicolon_partial (a c c' : List Char) (hs : ';' ∉ a) (hn : '\n' ∉ a ++ c ++ c')
    (hm : '%' ∉ a ++ c ++ c') : effect (a ++ ';' :: c) = effect (a ++ ';' :: c') := by
  simp only [List.mem_append, not_or] at hn hm
  obtain ⟨⟨hna, hnc⟩, hnc'⟩ := hn
  obtain ⟨⟨hma, hmc⟩, hmc'⟩ := hm
  have key : ∀ d, '%' ∉ d → '\n' ∉ d → ∃ d', '\n' ∉ d' ∧
      lineSplit (a ++ ';' :: d) = some (a ++ ';' :: d', none) := by
    intro d hmd hnd
    obtain ⟨r, m, hr, hpr, hsome, hnone⟩ := C12_split (a ++ ';' :: d) (by simp [hna, hnd])
    have hmn : m = none := by
      cases hmm : m with
      | none => rfl
      | some x =>
        exfalso
        obtain ⟨hx, he⟩ := hsome x hmm
        have h1 : '%' ∈ a ++ ';' :: d := by
          rw [he]
          cases x with
          | nil => cases hx
          | cons z y => simp at hx; simp [hx]
        revert h1; simp [hma, hmd]
    subst hmn
    obtain ⟨w, he, hw, hl⟩ := hnone rfl
    -- `;` is not a blank, so it survives
    rcases List.append_eq_append_iff.1 he with ⟨k, hk, hk2⟩ | ⟨k, hk, hk2⟩
    · cases k with
      | nil =>
        exfalso
        simp at hk2
        have := hw ';' (by rw [← hk2]; simp)
        revert this; decide
      | cons z k =>
        simp only [List.cons_append, List.cons.injEq] at hk2
        refine ⟨k, fun h => hnd (by rw [hk2.2]; simp [h]), ?_⟩
        rw [hr, hk, ← hk2.1]
    · exfalso
      have := hw ';' (by rw [hk2]; simp)
      revert this; decide
  obtain ⟨d, hd, h⟩ := key c hmc hnc
  obtain ⟨d', hd', h'⟩ := key c' hmc' hnc'
  exact effect_congr h h' rfl (C10_block_independent a d d' hs (by simp [hna, hd]) (by simp [hna, hd']))

/-- Non-trivial instance of the partial theorems. -/
example : effect "G1 (to X5) Y3 (b) %m".toList = effect "G1 () Y3 (b) %m".toList :=
  C14_brackets_partial "G1 ".toList "to X5".toList [] " Y3 (b) %m".toList
    (by intro x y he
        exfalso
        have : '(' ∈ "G1 ".toList := by rw [he]; simp
        revert this; decide)
    (by decide) (by decide) (by decide) (by decide)

end Pygcode.Props
