import Verif.Model.Lines
import Verif.Lemmas.Lex
import Verif.Lemmas.ListAux

/-!
# Properties C10–C12, C14: splitting lines into block, comment and macro
-/

namespace Pygcode.Props
open Pygcode Pygcode.Spec

/-! ## Specification vocabulary -/

/-- `a` without its trailing blanks, as a relation: `a = b ++ blanks` and `b` does not end in a
blank. -/
def RStripped (a b : List Char) : Prop :=
  ∃ w, a = b ++ w ∧ Blank w ∧ ∀ x ∈ b.getLast?, isSpace x = false

/-- `a` without its leading blanks. -/
def LStripped (a b : List Char) : Prop :=
  ∃ w, a = w ++ b ∧ Blank w ∧ ∀ x ∈ b.head?, isSpace x = false

/-- Text with its complete `(…)` spans removed, and their contents. -/
inductive Bracketed : List Char → List Char → List (List Char) → Prop
  | plain {t} : (∀ a b, t = a ++ '(' :: b → ')' ∉ b) → Bracketed t t []
  | span {a c rest blk cs} : '(' ∉ a → ')' ∉ c → Bracketed rest blk cs →
      Bracketed (a ++ '(' :: (c ++ ')' :: rest)) (a ++ blk) (c :: cs)

/-! ## C10 -/

theorem rstripNewlines_id {t : List Char} (h : '\n' ∉ t) : rstripNewlines t = t := by
  unfold rstripNewlines
  cases hr : t.reverse with
  | nil => simp_all
  | cons a r =>
    have ha : a ∈ t := by rw [← List.mem_reverse, hr]; simp
    have : a ≠ '\n' := by rintro rfl; exact h ha
    have h2 : (a == '\n') = false := by simpa using this
    rw [List.dropWhile_cons, h2]
    simp only [Bool.false_eq_true, if_false]
    rw [← hr, List.reverse_reverse]

theorem semi_not_space : isSpace ';' = false := by decide

theorem semiAt_none_of_no_semi {s : List Char} (h : ';' ∉ s) : semiAt s = none := by
  unfold semiAt
  split
  · next r heq =>
    exfalso; apply h
    have : ';' ∈ s.dropWhile isSpace := by rw [heq]; simp
    exact List.dropWhile_subset _ this
  · rfl

theorem semiFind_none {s : List Char} (h : ';' ∉ s) : semiFind s = none := by
  induction s with
  | nil => unfold semiFind; simp [semiAt_none_of_no_semi h]
  | cons c cs ih =>
    unfold semiFind
    rw [semiAt_none_of_no_semi h]
    simp only [ih (fun hm => h (by simp [hm])), Option.map_none]

/-- Evaluating the semicolon search: `a` has no `;`. -/
theorem semiFind_eval {a b : List Char} (ha : ';' ∉ a) (hb : '\n' ∉ b.dropWhile isSpace) :
    ∃ blk, RStripped a blk ∧ semiFind (a ++ ';' :: b) = some (blk, b.dropWhile isSpace) := by
  induction a with
  | nil =>
    refine ⟨[], ⟨[], rfl, by simp [Blank], by simp⟩, ?_⟩
    unfold semiFind semiAt
    simp [semi_not_space, hb]
  | cons c a ih =>
    obtain ⟨blk, ⟨w, hw, hbl, hlast⟩, hf⟩ := ih (fun hm => ha (by simp [hm]))
    have hc : c ≠ ';' := by rintro rfl; exact ha (by simp)
    by_cases hall : Blank (c :: a)
    · -- the whole prefix is blank: the match starts here
      refine ⟨[], ⟨c :: a, rfl, hall, by simp⟩, ?_⟩
      have : semiAt ((c :: a) ++ ';' :: b) = some (b.dropWhile isSpace) := by
        unfold semiAt
        rw [dropWhile_app hall (by simp [semi_not_space])]
        simp [hb]
      unfold semiFind
      rw [this]
    · have hnone : semiAt ((c :: a) ++ ';' :: b) = none := by
        unfold semiAt
        split
        · next r heq =>
          exfalso
          -- the dropWhile stops inside `c :: a`, whose characters are not `;`
          have : ∃ x l, (c :: a).dropWhile isSpace = x :: l := by
            cases hd : (c :: a).dropWhile isSpace with
            | nil =>
              exfalso; apply hall
              intro x hx
              exact dropWhile_nil_all hd x hx
            | cons x l => exact ⟨x, l, rfl⟩
          obtain ⟨x, l, hxl⟩ := this
          have h2 : ((c :: a) ++ ';' :: b).dropWhile isSpace = x :: (l ++ ';' :: b) := by
            rw [List.dropWhile_append, hxl]; simp
          rw [h2] at heq
          simp only [List.cons.injEq] at heq
          have hx : x ∈ c :: a := List.dropWhile_subset (p := isSpace) (by rw [hxl]; simp)
          rw [heq.1] at hx
          exact ha hx
        · rfl
      refine ⟨c :: blk, ⟨w, by rw [hw]; rfl, hbl, ?_⟩, ?_⟩
      · intro x hx
        cases blk with
        | nil =>
          simp at hx
          subst hx
          by_contra hs
          apply hall
          intro y hy
          rcases List.mem_cons.1 hy with rfl | hy
          · simpa using hs
          · rw [hw] at hy; simp at hy; exact hbl y hy
        | cons d blk =>
          simp only [List.getLast?_cons_cons] at hx
          exact hlast x hx
      · simp only [List.cons_append] at hnone ⊢
        unfold semiFind
        rw [hnone]
        simp only [hf, Option.map_some]

/-- **C10**: a line with a `;` (the first one between `a` and `b`) has as block the text before it
without trailing blanks, and as comment the text after it without leading blanks. -/
theorem C10_semicolon (a b : List Char) (ha : ';' ∉ a) (hn : '\n' ∉ a ++ b) :
    ∃ blk t, splitLine (a ++ ';' :: b) = (blk, some (.semicolon t)) ∧
      RStripped a blk ∧ LStripped b t := by
  have hid : rstripNewlines (a ++ ';' :: b) = a ++ ';' :: b := by
    apply rstripNewlines_id
    intro h; apply hn
    simp only [List.mem_append, List.mem_cons] at h ⊢
    rcases h with h | h | h
    · exact .inl h
    · exact absurd h (by decide)
    · exact .inr h
  obtain ⟨blk, hr, hf⟩ := semiFind_eval (b := b) ha
    (fun h => hn (List.mem_append.2 (.inr (List.dropWhile_subset _ h))))
  refine ⟨blk, b.dropWhile isSpace, ?_, hr, b.takeWhile isSpace, split_while isSpace b,
    blank_takeWhile b, head_dropWhile⟩
  unfold splitLine
  simp only [hid, hf]

/-- **C10**: what follows the first `;` has no influence on the block. -/
theorem C10_block_independent (a b b' : List Char) (ha : ';' ∉ a) (hn : '\n' ∉ a ++ b)
    (hn' : '\n' ∉ a ++ b') : (splitLine (a ++ ';' :: b)).1 = (splitLine (a ++ ';' :: b')).1 := by
  obtain ⟨blk, t, h1, ⟨w, hw, hwb, hl⟩, -⟩ := C10_semicolon a b ha hn
  obtain ⟨blk', t', h1', ⟨w', hw', hwb', hl'⟩, -⟩ := C10_semicolon a b' ha hn'
  rw [h1, h1']
  show blk = blk'
  -- the right-stripped text is unique
  have key : ∀ (x y u v : List Char), x ++ u = y ++ v → Blank u → Blank v →
      (∀ z ∈ x.getLast?, isSpace z = false) → (∀ z ∈ y.getLast?, isSpace z = false) →
      x.length ≤ y.length → x = y := by
    intro x y u v he hu hv hx hy hle
    rcases List.append_eq_append_iff.1 he with ⟨m, rfl, rfl⟩ | ⟨m, rfl, rfl⟩
    · rcases nil_or_snoc m with rfl | ⟨m, z, rfl⟩
      · simp
      · exfalso
        have h1 := hy z (by simp)
        have h2 := hu z (by simp)
        rw [h1] at h2; cases h2
    · simp at hle
      subst hle; simp
  rcases Nat.le_total blk.length blk'.length with h | h
  · exact key _ _ _ _ (hw ▸ hw') hwb hwb' hl hl' h
  · exact (key _ _ _ _ (hw' ▸ hw) hwb' hwb hl' hl h).symm

example : splitLine "G1 X2  ;  feed (a) %b".toList =
    ("G1 X2".toList, some (.semicolon "feed (a) %b".toList)) := by decide +kernel

/-! ## C11 -/

theorem bracketScan_some_closed (acc c rest : List Char) (hc : ')' ∉ c) :
    bracketScan (some acc) (c ++ ')' :: rest) =
      ((bracketScan none rest).1, (acc.reverse ++ c) :: (bracketScan none rest).2) := by
  induction c generalizing acc with
  | nil => simp [bracketScan]
  | cons x c ih =>
    have hx : x ≠ ')' := by rintro rfl; exact hc (by simp)
    rw [List.cons_append, bracketScan, if_neg hx, ih _ (fun h => hc (by simp [h]))]
    simp

theorem bracketScan_some_open (acc s : List Char) (h : ')' ∉ s) :
    bracketScan (some acc) s = ('(' :: (acc.reverse ++ s), []) := by
  induction s generalizing acc with
  | nil => simp [bracketScan]
  | cons x s ih =>
    have hx : x ≠ ')' := by rintro rfl; exact h (by simp)
    rw [bracketScan, if_neg hx, ih _ (fun h' => h (by simp [h']))]
    simp

theorem bracketScan_none_app (a s : List Char) (ha : '(' ∉ a) :
    bracketScan none (a ++ s) = (a ++ (bracketScan none s).1, (bracketScan none s).2) := by
  induction a with
  | nil => simp
  | cons x a ih =>
    have hx : x ≠ '(' := by rintro rfl; exact ha (by simp)
    rw [List.cons_append, bracketScan, if_neg hx, ih (fun h => ha (by simp [h]))]
    simp

theorem bracketed_scan {t blk : List Char} {cs : List (List Char)} (h : Bracketed t blk cs) :
    bracketScan none t = (blk, cs) := by
  induction h with
  | @plain t h =>
    by_cases hp : '(' ∈ t
    · obtain ⟨a, b, rfl, ha⟩ := first_split hp
      have hb := h a b rfl
      rw [bracketScan_none_app _ _ ha, bracketScan, if_pos rfl, bracketScan_some_open _ _ hb]
      simp
    · have := bracketScan_none_app t [] hp
      simpa [bracketScan] using this
  | @span a c rest blk cs ha hc hr ih =>
    rw [bracketScan_none_app _ _ ha, bracketScan, if_pos rfl, bracketScan_some_closed _ _ _ hc, ih]
    simp

/-- Every text decomposes into bracket spans and the rest. -/
theorem bracketed_exists (t : List Char) : ∃ blk cs, Bracketed t blk cs := by
  induction hn : t.length using Nat.strong_induction_on generalizing t with
  | _ n ih =>
    by_cases h : ∀ a b, t = a ++ '(' :: b → ')' ∉ b
    · exact ⟨t, [], .plain h⟩
    · push Not at h
      obtain ⟨a0, b0, rfl, hb0⟩ := h
      -- first open bracket
      have hfirst : ∃ a b, a0 ++ '(' :: b0 = a ++ '(' :: b ∧ '(' ∉ a ∧ ')' ∈ b := by
        clear ih hn
        induction a0 with
        | nil => exact ⟨[], b0, rfl, by simp, hb0⟩
        | cons x a0 iha =>
          by_cases hx : x = '('
          · subst hx
            exact ⟨[], a0 ++ '(' :: b0, rfl, by simp, by simp [hb0]⟩
          · obtain ⟨a, b, he, ha, hb⟩ := iha
            refine ⟨x :: a, b, by simp [he], ?_, hb⟩
            intro hm
            rcases List.mem_cons.1 hm with h | h
            · exact hx h.symm
            · exact ha h
      obtain ⟨a, b, he, ha, hb⟩ := hfirst
      -- first close bracket
      obtain ⟨c, rest, rfl, hc⟩ := first_split hb
      rw [he] at hn ⊢
      obtain ⟨blk, cs, hr⟩ := ih rest.length (by simp at hn; omega) rest rfl
      exact ⟨a ++ blk, c :: cs, .span ha hc hr⟩

/-- **C11**: for text without `;`, exactly the bracket spans are removed, and the comment joins
their contents with `". "`; without a complete span there is no comment and the text is kept. -/
theorem C11_brackets (t blk : List Char) (cs : List (List Char)) (hs : ';' ∉ t) (hn : '\n' ∉ t)
    (h : Bracketed t blk cs) :
    splitLine t = (blk, if cs = [] then none else some (.brackets (joinWith ". ".toList cs))) := by
  unfold splitLine
  simp only
  rw [rstripNewlines_id hn, semiFind_none hs, bracketed_scan h]
  by_cases hc : cs = []
  · subst hc
    cases h with
    | plain _ => simp
  · simp only [hc, if_false]; rfl

/-- C11 applies to every such text: the decomposition exists (and is unique). -/
theorem C11_total (t : List Char) : ∃ blk cs, Bracketed t blk cs ∧
    ∀ blk' cs', Bracketed t blk' cs' → blk' = blk ∧ cs' = cs := by
  obtain ⟨blk, cs, h⟩ := bracketed_exists t
  refine ⟨blk, cs, h, fun blk' cs' h' => ?_⟩
  have h1 := bracketed_scan h
  rw [bracketed_scan h'] at h1
  cases h1; exact ⟨rfl, rfl⟩

example : splitLine "G1 (a) X1 (b(c) Y2)".toList =
    ("G1  X1  Y2)".toList, some (.brackets "a. b(c".toList)) := by decide +kernel
example : splitLine "G1 (open".toList = ("G1 (open".toList, none) := by decide +kernel

/-! ## C12 -/

theorem lineSplit_percent {cs : List Char} (h : '\n' ∉ cs) :
    lineSplit ('%' :: cs) = some ([], some ('%' :: cs)) := by
  have h1 : ∀ x ∈ cs, (x != '\n') = true := by
    intro x hx; rw [bne_iff_ne]; rintro rfl; exact h hx
  have e1 := dropWhile_app (b := []) h1 (by simp)
  have e2 := takeWhile_app (b := []) h1 (by simp)
  rw [List.append_nil] at e1 e2
  unfold lineSplit
  simp only [e1, e2, List.all_nil, and_self, if_true]

/-- **C12** (text with a `%`): everything from the first `%` on is the macro, everything before it
is the block and comment; no character is lost. -/
theorem C12_macro (a m : List Char) (ha : '%' ∉ a) (hn : '\n' ∉ a ++ m) :
    lineSplit (a ++ '%' :: m) = some (a, some ('%' :: m)) := by
  induction a with
  | nil =>
    have hm : '\n' ∉ m := fun h => hn (by simpa using h)
    exact lineSplit_percent hm
  | cons c a ih =>
    have hc : c ≠ '%' := by rintro rfl; exact ha (by simp)
    have hc2 : c ≠ '\n' := by rintro rfl; exact hn (by simp)
    rw [List.cons_append]
    unfold lineSplit
    have hns : ¬ (c :: (a ++ '%' :: m)).all isSpace = true := by
      intro h
      rw [List.all_eq_true] at h
      have := h '%' (by simp)
      exact absurd this (by decide)
    simp only [hc, false_and, if_false, hc2, hns, Bool.false_eq_true]
    rw [ih (fun h => ha (by simp [h])) (fun h => hn (by
      rw [List.cons_append]; exact List.mem_cons_of_mem _ h))]
    rfl

/-- **C12** (text without a `%`): the block and comment is the text without its trailing blanks,
there is no macro. -/
theorem C12_plain (b w : List Char) (hp : '%' ∉ b) (hn : '\n' ∉ b) (hw : Blank w)
    (hl : ∀ x ∈ b.getLast?, isSpace x = false) : lineSplit (b ++ w) = some (b, none) := by
  induction b with
  | nil =>
    cases w with
    | nil => rfl
    | cons c w =>
      have hc : c ≠ '%' := by rintro rfl; exact absurd (hw '%' (by simp)) (by decide)
      have hall : (c :: w).all isSpace = true := by rw [List.all_eq_true]; exact hw
      rw [List.nil_append]
      unfold lineSplit
      simp only [hc, false_and, if_false, hall, if_true]
  | cons c b ih =>
    have hc : c ≠ '%' := by rintro rfl; exact hp (by simp)
    have hc2 : c ≠ '\n' := by rintro rfl; exact hn (by simp)
    rw [List.cons_append]
    unfold lineSplit
    have hns : ¬ (c :: (b ++ w)).all isSpace = true := by
      intro h
      rw [List.all_eq_true] at h
      have hlast : ∃ x, (c :: b).getLast? = some x := by
        cases hgl : (c :: b).getLast? with
        | none => simp at hgl
        | some x => exact ⟨x, rfl⟩
      obtain ⟨x, hx⟩ := hlast
      have h1 := hl x (by rw [hx]; rfl)
      have hxm : x ∈ c :: b := List.mem_of_getLast? hx
      have h2 := h x (by
        rcases List.mem_cons.1 hxm with rfl | hm
        · simp
        · simp [hm])
      rw [h1] at h2; cases h2
    simp only [hc, false_and, if_false, hc2, hns, Bool.false_eq_true]
    rw [ih (fun h => hp (by simp [h])) (fun h => hn (by simp [h]))]
    · rfl
    · intro x hx
      cases b with
      | nil => simp at hx
      | cons d b => exact hl x (by rw [List.getLast?_cons_cons]; exact hx)

/-- **C12** (newline inside): a text whose first line is followed by something other than blanks
is refused (`AttributeError`). -/
theorem C12_newline (a b : List Char) (h : ¬ Blank b) (ha : '\n' ∉ a) :
    lineSplit (a ++ '\n' :: b) = none := by
  have hb : b.all isSpace = false := by
    rw [← Bool.not_eq_true, List.all_eq_true]; exact h
  induction a with
  | nil =>
    rw [List.nil_append]
    unfold lineSplit
    have : ¬ ('\n' :: b).all isSpace = true := by
      rw [List.all_cons, hb]; simp
    simp [this]
  | cons c a ih =>
    have hc2 : c ≠ '\n' := by rintro rfl; exact ha (by simp)
    have ha' : '\n' ∉ a := fun h => ha (by simp [h])
    rw [List.cons_append]
    unfold lineSplit
    have h1 : ∀ x ∈ a, (x != '\n') = true := by
      intro x hx; rw [bne_iff_ne]; rintro rfl; exact ha' hx
    have e1 := dropWhile_app (b := '\n' :: b) h1 (by simp)
    have hns : ¬ (c :: (a ++ '\n' :: b)).all isSpace = true := by
      simp [hb]
    simp only [e1, List.all_cons, hb, Bool.and_false, Bool.false_eq_true, and_false, if_false,
      hc2]
    have hns' : ¬ (isSpace c && (a ++ '\n' :: b).all isSpace) = true := by
      rw [← List.all_cons]; exact hns
    simp only [hns', if_false]
    rw [ih ha']
    rfl

/-- **C12** (general form): on a text without inner newline the split succeeds, the parts put
together are the text up to trailing blanks, the macro starts with `%`, and there is no `%` before
it. -/
theorem C12_split (t : List Char) (hn : '\n' ∉ t) :
    ∃ b m, lineSplit t = some (b, m) ∧ '%' ∉ b ∧
      (∀ x, m = some x → x.head? = some '%' ∧ t = b ++ x) ∧
      (m = none → RStripped t b) := by
  by_cases hp : '%' ∈ t
  · obtain ⟨a, m, rfl, ha⟩ := first_split hp
    refine ⟨a, some ('%' :: m), C12_macro a m ha ?_, ha, ?_, by simp⟩
    · intro h; apply hn
      simp only [List.mem_append, List.mem_cons] at h ⊢
      tauto
    · intro x hx; cases hx; exact ⟨rfl, rfl⟩
  · -- split off trailing blanks
    have hs : t = (t.reverse.dropWhile isSpace).reverse ++ (t.reverse.takeWhile isSpace).reverse := by
      rw [← List.reverse_append, List.takeWhile_append_dropWhile, List.reverse_reverse]
    have hblank : Blank (t.reverse.takeWhile isSpace).reverse := by
      intro c hc; exact mem_takeWhile (List.mem_reverse.1 hc)
    have hlast : ∀ x ∈ ((t.reverse.dropWhile isSpace).reverse).getLast?, isSpace x = false := by
      intro x hx
      rw [List.getLast?_reverse] at hx
      exact head_dropWhile x hx
    have hsub : ∀ c, c ∉ t → c ∉ (t.reverse.dropWhile isSpace).reverse := by
      intro c hc hm; apply hc; rw [hs]; exact List.mem_append.2 (.inl hm)
    refine ⟨(t.reverse.dropWhile isSpace).reverse, none, ?_, hsub _ hp, by simp, fun _ => ⟨_, hs, hblank, hlast⟩⟩
    conv_lhs => rw [hs]
    exact C12_plain _ _ (hsub _ hp) (hsub _ hn) hblank hlast

example : lineSplit "G1 X1 (c)  ".toList = some ("G1 X1 (c)".toList, none) := by decide +kernel
example : lineSplit "G1 %mac ro%  ".toList = some ("G1 ".toList, some "%mac ro%  ".toList) := by
  decide +kernel
example : lineSplit "G1\nX1".toList = none := by decide +kernel

end Pygcode.Props
