import Verif.Lemmas.Regroup
import Verif.Props.Words
import Verif.Props.Lines
import Verif.Props.Lookup

/-!
# Properties C20, C21: printed blocks (`block.py`, `gcodes.py`)
-/

namespace Pygcode.Props
open Pygcode Pygcode.Spec

/-- Words that print exactly, one after the other: no program name (it would swallow the rest of
the line), and no blanks inside a tool name. -/
def PlainWord (w : Word) : Prop :=
  Printable w ∧ w.letter ≠ 'O' ∧ (w.letter = 'T' → ∀ c ∈ w.valueStr, isSpace c = false)

/-- Two gcodes with the same meaning: same class, word, and parameters (in any order). -/
def SameGCode (a b : GCode) : Prop :=
  a.cls = b.cls ∧ a.word = b.word ∧ a.params.Perm b.params

/-! ### Characters of printed words -/

theorem plain_chars {w : Word} (h : PlainWord w) :
    ∀ c ∈ w.valueStr, c.isDigit = true ∨ c = '-' ∨ c = '.' := by
  obtain ⟨hp, hO, hT⟩ := h
  obtain ⟨l, v⟩ := w
  unfold Printable at hp
  unfold Word.valueStr at hT ⊢
  rw [wordKind_eq_kindOf] at hT ⊢
  simp only at hp hO hT ⊢
  have num : ∀ (neg : Bool) (i f : List Char), Digits i → Digits f →
      ∀ c ∈ (if neg then ['-'] else []) ++ i ++ (if f = [] then [] else '.' :: f),
        c.isDigit = true ∨ c = '-' ∨ c = '.' := by
    intro neg i f hi hf c hc
    simp only [List.mem_append] at hc
    rcases hc with (hc | hc) | hc
    · cases neg <;> simp at hc; exact .inr (.inl hc)
    · exact .inl (hi c hc)
    · split at hc
      · simp at hc
      · rcases List.mem_cons.1 hc with rfl | hc
        · exact .inr (.inr rfl)
        · exact .inl (hf c hc)
  cases hk : kindOf l with
  | none => simp [hk] at hp
  | some k =>
    cases k with
    | flt =>
      cases v with
      | str s => simp [hk] at hp
      | num q =>
        simp only [hk] at hp ⊢
        obtain ⟨n, d, hd, hn, rfl⟩ := hp
        obtain ⟨neg, i, f, a, hs, heq, -⟩ := fmtG_exact hd hn
        unfold cleanFloat
        rw [round3_exact hd, heq]
        exact num neg i f hs.di hs.df
    | code =>
      cases v with
      | str s => simp [hk] at hp
      | num q =>
        simp only [hk] at hp ⊢
        obtain ⟨n, d, hd, hn, rfl⟩ := hp
        have habs : |(n : ℤ)| < 10 ^ 6 := by rw [abs_of_nonneg (by omega)]; exact_mod_cast hn
        obtain ⟨neg, i, f, a, hs, heq, -⟩ := fmtG_exact (n := (n : ℤ)) (d := d) (by omega) habs
        have := num neg i f hs.di hs.df
        push_cast at heq
        rw [← heq] at this
        unfold cleanCode
        intro c hc
        split at hc
        · rcases List.mem_cons.1 hc with rfl | hc
          · exact .inl (by decide)
          · exact this c hc
        · exact this c hc
    | posint =>
      cases v with
      | str s => simp [hk] at hp
      | num q =>
        simp only [hk] at hp ⊢
        obtain ⟨n, hn, rfl⟩ := hp
        have habs : |(n : ℤ)| < 10 ^ 6 := by rw [abs_of_nonneg (by omega)]; exact_mod_cast hn
        obtain ⟨neg, i, f, a, hs, heq, -⟩ := fmtG_exact (n := (n : ℤ)) (d := 0) (by omega) habs
        have := num neg i f hs.di hs.df
        push_cast at heq
        rw [pow_zero, div_one] at heq
        rw [← heq] at this
        exact this
    | tool =>
      cases v with
      | num q => simp [hk] at hp
      | str s =>
        have hl : l = 'T' := by
          unfold kindOf at hk
          split_ifs at hk with h1 h2 h3 h4 <;> first | assumption | cases hk
        simp only [hk] at hp hT ⊢
        obtain ⟨ws, i, rfl, hw, hne, hi⟩ := hp
        intro c hc
        rcases List.mem_append.1 hc with h | h
        · have := hT hl c hc
          rw [hw c h] at this; cases this
        · exact .inl (hi c h)
    | name =>
      exfalso; apply hO
      exact kindOf_name (by rw [wordKind_eq_kindOf, hk])

theorem printable_isLetter {w : Word} (h : Printable w) : IsLetter w.letter := by
  have hk : kindOf w.letter ≠ none := by
    intro h0; unfold Printable at h; simp [h0] at h
  unfold kindOf at hk
  unfold IsLetter
  split_ifs at hk with h1 h2 h3 h4 h5
  · simp only [List.mem_cons, List.not_mem_nil, or_false] at h1
    rcases h1 with h | h <;> rw [h] <;> decide
  · simp only [List.mem_cons, List.not_mem_nil, or_false] at h2
    rcases h2 with h | h <;> rw [h] <;> decide
  · rw [h3]; decide
  · rw [h4]; decide
  · have : ∀ c ∈ "ABCDEFHIJKPQRSUVWXYZ".toList, (65 ≤ c.toNat ∧ c.toNat ≤ 90) ∨
        (97 ≤ c.toNat ∧ c.toNat ≤ 122) := by decide
    exact this _ h5
  · exact absurd rfl hk

/-- Characters of printed plain words: letters, digits, minus and point. -/
theorem plain_str_chars {w : Word} (h : PlainWord w) :
    ∀ c ∈ w.str, IsLetter c ∨ c.isDigit = true ∨ c = '-' ∨ c = '.' := by
  intro c hc
  unfold Word.str at hc
  rcases List.mem_cons.1 hc with rfl | hc
  · exact .inl (printable_isLetter h.1)
  · exact .inr (plain_chars h c hc)

theorem plain_str_no_blank {w : Word} (h : PlainWord w) : ∀ c ∈ w.str, isSpace c = false := by
  intro c hc
  rcases plain_str_chars h c hc with h | h | rfl | rfl
  · exact letter_not_space h
  · exact not_space_of_digit h
  · decide
  · decide

/-! ### Clean-up of printed text -/

theorem collapse_app {a : List Char} (ha : ∀ c ∈ a, isSpace c = false) (r : List Char) :
    collapse (a ++ r) = a ++ collapse r := by
  induction a with
  | nil => rfl
  | cons c a ih =>
    have := ha c (by simp)
    rw [List.cons_append, ← List.cons_append, List.cons_append, List.cons_append,
      ← ih (fun d hd => ha d (by simp [hd]))]
    conv_lhs => unfold collapse
    simp only [this, Bool.false_eq_true, if_false]

/-- Texts without blanks, joined by single blanks, are not changed by the clean-up. -/
theorem collapse_join (ss : List (List Char)) (hs : ∀ s ∈ ss, s ≠ [] ∧ ∀ c ∈ s, isSpace c = false) :
    collapse (joinWith [' '] ss) = joinWith [' '] ss := by
  induction ss with
  | nil => rfl
  | cons s ss ih =>
    cases ss with
    | nil =>
      have := collapse_app (hs s (by simp)).2 []
      simpa [joinWith, collapse] using this
    | cons s2 ss =>
      have h1 := ih (fun x hx => hs x (by simp [List.mem_cons.1 hx]))
      obtain ⟨hne, hb⟩ := hs s2 (by simp)
      obtain ⟨c, s2', rfl⟩ := List.exists_cons_of_ne_nil hne
      have hc : isSpace c = false := hb c (by simp)
      have hj : joinWith [' '] (s :: (c :: s2') :: ss) = s ++ ' ' :: joinWith [' '] ((c :: s2') :: ss) := by
        simp [joinWith]
      have hh : ∃ r, joinWith [' '] ((c :: s2') :: ss) = c :: r := by
        cases ss <;> simp [joinWith]
      obtain ⟨r, hr⟩ := hh
      rw [hj, collapse_app (hs s (by simp)).2]
      congr 1
      rw [hr] at h1 ⊢
      have hsp : isSpace ' ' = true := by decide
      rw [collapse]
      simp only [hsp, if_true, hc, Bool.false_eq_true, if_false]
      rw [h1]

theorem strip_eval {a s b : List Char} (ha : Blank a) (hb : Blank b)
    (h1 : ∀ x ∈ s.head?, isSpace x = false) (h2 : ∀ x ∈ s.getLast?, isSpace x = false) :
    strip (a ++ s ++ b) = s := by
  unfold strip
  cases s with
  | nil =>
    have : Blank (a ++ b) := by
      intro c hc
      rcases List.mem_append.1 hc with h | h
      · exact ha c h
      · exact hb c h
    have h0 := dropWhile_app (b := []) this (by simp)
    rw [List.append_nil] at h0 ⊢
    rw [h0]; rfl
  | cons c s =>
    rw [List.append_assoc, dropWhile_app ha (by simpa using h1), List.reverse_append,
      dropWhile_app (fun x hx => hb x (List.mem_reverse.1 hx))
        (by intro x hx; rw [List.head?_reverse] at hx; exact h2 x hx),
      List.reverse_reverse]

theorem join_head {ss : List (List Char)} (hs : ∀ s ∈ ss, s ≠ [] ∧ ∀ c ∈ s, isSpace c = false) :
    ∀ x ∈ (joinWith [' '] ss).head?, isSpace x = false := by
  cases ss with
  | nil => simp [joinWith]
  | cons s ss =>
    obtain ⟨hne, hb⟩ := hs s (by simp)
    obtain ⟨c, s', rfl⟩ := List.exists_cons_of_ne_nil hne
    intro x hx
    have : x = c := by
      cases ss <;> simp [joinWith] at hx <;> exact hx.symm
    exact this ▸ hb c (by simp)

theorem join_last {ss : List (List Char)} (hs : ∀ s ∈ ss, s ≠ [] ∧ ∀ c ∈ s, isSpace c = false) :
    ∀ x ∈ (joinWith [' '] ss).getLast?, isSpace x = false := by
  induction ss with
  | nil => simp [joinWith]
  | cons s ss ih =>
    obtain ⟨hne, hb⟩ := hs s (by simp)
    cases ss with
    | nil =>
      intro x hx
      simp only [joinWith] at hx
      exact hb x (List.mem_of_getLast? hx)
    | cons s2 ss =>
      have h1 := ih (fun x hx => hs x (by simp [List.mem_cons.1 hx]))
      obtain ⟨hne2, -⟩ := hs s2 (by simp)
      have hj : joinWith [' '] (s :: s2 :: ss) = (s ++ [' ']) ++ joinWith [' '] (s2 :: ss) := by
        simp [joinWith]
      have hnn : joinWith [' '] (s2 :: ss) ≠ [] := by
        cases ss <;> simp [joinWith, hne2]
      intro x hx
      rw [hj, List.getLast?_append_of_ne_nil _ hnn] at hx
      exact h1 x hx

/-- Clean-up of printed words with blanks around them. -/
theorem cleanText_words (ws : List Word) (hw : ∀ w ∈ ws, PlainWord w) (a b : List Char)
    (ha : Blank a) (hb : Blank b) :
    cleanText (a ++ joinWith [' '] (ws.map Word.str) ++ b) = joinWith [' '] (ws.map Word.str) := by
  have hs : ∀ s ∈ ws.map Word.str, s ≠ [] ∧ ∀ c ∈ s, isSpace c = false := by
    intro s hs
    obtain ⟨w, hwm, rfl⟩ := List.mem_map.1 hs
    exact ⟨by simp [Word.str], plain_str_no_blank (hw w hwm)⟩
  unfold cleanText
  rw [strip_eval ha hb (join_head hs) (join_last hs), collapse_join _ hs]

/-! ### The printed words of a block -/

/-- The words of gcodes and left-over words in the order they are printed. -/
def printedWords (gs : List GCode) (mp : List Word) : List Word :=
  gs.flatMap (fun g => g.word :: g.sortedParams) ++ mp

theorem joinWith_cons (s : List Char) (r : List (List Char)) (hr : r ≠ []) :
    joinWith [' '] (s :: r) = s ++ ' ' :: joinWith [' '] r := by
  cases r with
  | nil => exact absurd rfl hr
  | cons a r => simp [joinWith]

theorem gcode_str_join (g : GCode) (h : g.ws = false) :
    g.str = joinWith [' '] ((g.word :: g.sortedParams).map Word.str) := by
  unfold GCode.str
  simp only [h, Bool.false_eq_true, if_false, List.map_cons]
  generalize g.word.str = s
  generalize g.sortedParams = ps
  induction ps generalizing s with
  | nil => simp [joinWith]
  | cons p ps ih =>
    rw [List.map_cons, joinWith_cons _ _ (by simp), ← ih p.str]
    simp

theorem joinWith_append {a b : List (List Char)} (ha : a ≠ []) (hb : b ≠ []) :
    joinWith [' '] (a ++ b) = joinWith [' '] a ++ ' ' :: joinWith [' '] b := by
  induction a with
  | nil => exact absurd rfl ha
  | cons s a ih =>
    cases a with
    | nil => rw [List.singleton_append, joinWith_cons _ _ hb]; simp [joinWith]
    | cons s2 a =>
      rw [List.cons_append, joinWith_cons s _ (by simp), ih (by simp), joinWith_cons s (s2 :: a) (by simp)]
      simp

/-- `str` of a block is its printed words joined by single blanks. -/
theorem block_str_join (gs : List GCode) (mp : List Word) (h : ∀ g ∈ gs, g.ws = false) :
    joinWith [' '] (gs.map GCode.str ++ mp.map Word.str) =
      joinWith [' '] ((printedWords gs mp).map Word.str) := by
  unfold printedWords
  induction gs with
  | nil => simp
  | cons g gs ih =>
    have hg := gcode_str_join g (h g (by simp))
    have ih' := ih (fun x hx => h x (by simp [hx]))
    rw [List.map_cons, List.cons_append, List.flatMap_cons, List.append_assoc, List.map_append]
    by_cases hr : gs.map GCode.str ++ mp.map Word.str = []
    · rw [hr]
      have hgs : gs = [] := by
        cases gs with
        | nil => rfl
        | cons _ _ => simp at hr
      have hmp : mp = [] := by
        cases mp with
        | nil => rfl
        | cons _ _ => simp at hr
      subst hgs hmp
      simp only [List.flatMap_nil, List.append_nil, List.map_nil]
      rw [← hg]; rfl
    · rw [joinWith_cons _ _ hr, ih', joinWith_append (by simp), ← hg]
      intro h0
      apply hr
      rw [List.map_eq_nil_iff, List.append_eq_nil_iff] at h0
      have hgs : gs = [] := by
        cases gs with
        | nil => rfl
        | cons _ _ => simp at h0
      rw [hgs, h0.2]; rfl

/-! ### Reading printed gcodes back -/

/-- The gcode with its parameters in printing order. -/
def canon (g : GCode) : GCode := { g with params := g.sortedParams }

theorem sortedParams_perm (g : GCode) : g.sortedParams.Perm g.params := List.perm_insertionSort _ _

theorem sortedParams_canon (g : GCode) : (canon g).sortedParams = g.sortedParams := by
  have hs : g.sortedParams.Pairwise (fun a b => a.letter.toNat ≤ b.letter.toNat) := by
    have : Std.Total (fun a b : Word => a.letter.toNat ≤ b.letter.toNat) := ⟨fun a b => Nat.le_total _ _⟩
    have : IsTrans Word (fun a b : Word => a.letter.toNat ≤ b.letter.toNat) := ⟨fun a b c => Nat.le_trans⟩
    exact List.pairwise_insertionSort _ _
  exact List.Pairwise.insertionSort_eq hs

theorem canon_str (g : GCode) : (canon g).str = g.str := by
  unfold GCode.str
  rw [sortedParams_canon]; rfl

theorem canon_ok {g : GCode} (h : GOK g) : GOK (canon g) := by
  refine ⟨?_, fun p hp => h.2 p ((sortedParams_perm g).mem_iff.1 hp)⟩
  exact (((sortedParams_perm g).map Word.letter).nodup_iff).2 h.1

theorem canon_same (g : GCode) : SameGCode g (canon g) :=
  ⟨rfl, rfl, (sortedParams_perm g).symm⟩

theorem conflict_congr {gs gs' : List GCode}
    (h : gs.map (fun g => (g.cls, g.word)) = gs'.map (fun g => (g.cls, g.word))) :
    Conflict gs → Conflict gs' := by
  rintro ⟨i, j, a, b, hij, ha, hb, hc⟩
  have get : ∀ (k : ℕ) (x : GCode), gs[k]? = some x → ∃ y, gs'[k]? = some y ∧ y.cls = x.cls ∧ y.word = x.word := by
    intro k x hx
    have h1 : (gs'.map (fun g => (g.cls, g.word)))[k]? = some (x.cls, x.word) := by
      rw [← h, List.getElem?_map, hx]; rfl
    rw [List.getElem?_map] at h1
    cases hy : gs'[k]? with
    | none => rw [hy] at h1; cases h1
    | some y =>
      rw [hy] at h1
      simp only [Option.map_some, Option.some.injEq, Prod.mk.injEq] at h1
      exact ⟨y, rfl, h1.1, h1.2⟩
  obtain ⟨a', ha', ha1, ha2⟩ := get i a ha
  obtain ⟨b', hb', hb1, hb2⟩ := get j b hb
  exact ⟨i, j, a', b', hij, ha', hb', by rw [ha1, ha2, hb1, hb2]; exact hc⟩

theorem conflict_perm {gs gs' : List GCode} (h : gs.Perm gs') : Conflict gs → Conflict gs' := by
  have key : ∀ gs : List GCode, ¬ Conflict gs ↔ gs.Pairwise (fun a b => a.word ≠ b.word ∧
      ∀ k, a.cls.group = some k → b.cls.group ≠ some k) := by
    intro gs
    rw [← assert_conflict, (assertLoop_spec gs [] []).2]
    simp
  intro hc
  by_contra hn
  rw [key] at hn
  refine ((key gs).2 (h.symm.pairwise hn ?_)) hc
  rintro a b ⟨h1, h2⟩
  exact ⟨h1.symm, fun k hk hk' => h2 k hk' hk⟩

/-- What is known about the gcodes of a block. -/
structure BlockOK (b : Block) : Prop where
  ok : ∀ g ∈ b.gcodes, GOK g
  cls : ∀ g ∈ b.gcodes, wordClass g.word = some g.cls
  ws : ∀ g ∈ b.gcodes, g.ws = false
  ordered : Ordered b.gcodes
  unused : ∀ w ∈ b.modalParams, wordClass w = none
  perm : (b.gcodes.flatMap (fun g => g.word :: g.params) ++ b.modalParams).Perm b.words
  noConflict : ¬ Conflict b.gcodes

theorem block_ok {t : List Char} {b : Block} (h : Block.ofText t = .ok b) : BlockOK b := by
  unfold Block.ofText at h
  cases h1 : text2words (cleanText t) with
  | error e => rw [h1] at h; cases h
  | ok ws =>
    rw [h1] at h
    cases h2 : words2gcodes ws with
    | error e => simp only [h2] at h; cases h
    | ok p =>
      obtain ⟨gs, mp⟩ := p
      simp only [h2, if_true] at h
      cases h3 : Block.assertLoop [] [] gs with
      | error e => rw [h3] at h; cases h
      | ok u =>
        rw [h3] at h
        cases h
        have hp := C18_params ws gs mp h2
        obtain ⟨ho, hu⟩ := words2gcodes_ordered h2
        exact ⟨fun g hg => ⟨(hp g hg).1, (hp g hg).2.1⟩, fun g hg => (hp g hg).2.2.1,
          fun g hg => (hp g hg).2.2.2, ho, hu, C16_conserved ws gs mp h2, (assert_conflict gs).1 h3⟩

theorem printed_perm (gs : List GCode) (mp : List Word) :
    (printedWords gs mp).Perm (gs.flatMap (fun g => g.word :: g.params) ++ mp) := by
  unfold printedWords
  apply List.Perm.append_right
  induction gs with
  | nil => exact .nil
  | cons g gs ih =>
    rw [List.flatMap_cons, List.flatMap_cons]
    exact List.Perm.append (List.Perm.cons _ (sortedParams_perm g)) ih

theorem regroup_canon (gs : List GCode) (mp : List Word)
    (hcl : ∀ g ∈ gs, wordClass g.word = some g.cls)
    (hg : ∀ g ∈ gs, GOK g) (ho : Ordered gs) (hws : ∀ g ∈ gs, g.ws = false)
    (hm : ∀ w ∈ mp, wordClass w = none) (hd : ∀ g ∈ gs, ∀ w ∈ mp, w.letter ∉ g.cls.params) :
    words2gcodes (printedWords gs mp) = .ok (gs.map canon, mp) := by
  have := regroup (gs.map canon) mp (by simpa [canon] using hcl)
    (by
      intro g hgm
      obtain ⟨x, hx, rfl⟩ := List.mem_map.1 hgm
      exact canon_ok (hg x hx))
    (by unfold Ordered at ho ⊢; rw [List.pairwise_map]; exact ho)
    (by simpa [canon] using hws) hm
    (by simpa [canon] using hd)
  rw [List.flatMap_map] at this
  exact this

/-- Gcodes that are in an order that can stand on one line are read back from their printed form,
with blanks around it. -/
theorem print_reread (gs : List GCode) (mp : List Word) (a c : List Char) (ha : Blank a) (hc : Blank c)
    (hcl : ∀ g ∈ gs, wordClass g.word = some g.cls)
    (hg : ∀ g ∈ gs, GOK g) (ho : Ordered gs) (hws : ∀ g ∈ gs, g.ws = false)
    (hm : ∀ w ∈ mp, wordClass w = none) (hd : ∀ g ∈ gs, ∀ w ∈ mp, w.letter ∉ g.cls.params)
    (hp : ∀ w ∈ gs.flatMap (fun g => g.word :: g.params) ++ mp, PlainWord w)
    (hn : ¬ Conflict gs) :
    Block.ofText (a ++ joinWith [' '] (gs.map GCode.str ++ mp.map Word.str) ++ c) =
      .ok ⟨printedWords gs mp, gs.map canon, mp⟩ := by
  have hp' : ∀ w ∈ printedWords gs mp, PlainWord w :=
    fun w hw => hp w ((printed_perm gs mp).mem_iff.1 hw)
  have h1 : text2words (cleanText (a ++ joinWith [' '] (gs.map GCode.str ++ mp.map Word.str) ++ c)) =
      .ok (printedWords gs mp) := by
    rw [block_str_join gs mp hws, cleanText_words _ hp' a c ha hc]
    exact (C03_remove_whitespace _ (fun w hw => (hp' w hw).1) (fun w hw => (hp' w hw).2.1)).1
  have h2 := regroup_canon gs mp hcl hg ho hws hm hd
  refine (C19_verify _ _ _ _ h1 h2).2.1 (fun hcf => hn (conflict_congr ?_ hcf))
  rw [List.map_map]; rfl

theorem block_words_nil {b : Block} (h : BlockOK b) :
    b.words = [] ↔ b.gcodes = [] ∧ b.modalParams = [] := by
  constructor
  · intro h0
    have := h.perm
    rw [h0, List.perm_nil, List.append_eq_nil_iff] at this
    refine ⟨?_, this.2⟩
    cases hg : b.gcodes with
    | nil => rfl
    | cons g gs => rw [hg] at this; simp at this
  · rintro ⟨h1, h2⟩
    have := h.perm
    rw [h1, h2] at this
    simpa using this.symm

/-! ## C20 -/

/-- **C20**: a block of plain words in which no gcode accepts the letter of a left-over word is
printed as text that reads back as a block with the same gcodes (in the same order, with the same
parameters) and the same left-over words; printing that block gives the same text again. -/
theorem C20_meaning (t : List Char) (b : Block) (h : Block.ofText t = .ok b)
    (hp : ∀ w ∈ b.words, PlainWord w)
    (hm : ∀ g ∈ b.gcodes, ∀ w ∈ b.modalParams, w.letter ∉ g.cls.params) :
    ∃ b', Block.ofText b.str = .ok b' ∧ List.Forall₂ SameGCode b.gcodes b'.gcodes ∧
      b'.modalParams = b.modalParams ∧ b'.words.Perm b.words ∧ b'.str = b.str := by
  have hb := block_ok h
  have := print_reread b.gcodes b.modalParams [] [] blank_nil blank_nil hb.cls hb.ok hb.ordered hb.ws
    hb.unused hm (fun w hw => hp w (hb.perm.mem_iff.1 hw)) hb.noConflict
  rw [List.nil_append, List.append_nil] at this
  refine ⟨_, this, ?_, rfl, (printed_perm _ _).trans hb.perm, ?_⟩
  · rw [List.forall₂_map_right_iff]
    exact List.forall₂_same.2 (fun g _ => canon_same g)
  · unfold Block.str
    simp only [List.map_map]
    congr 2
    exact List.map_congr_left (fun g _ => canon_str g)

example : (Block.ofText "F100 G1 Z3 X1 A2 M3".toList).map Block.str =
    .ok "F100 G01 A2 X1 Z3 M03".toList := by decide +kernel
example : (Block.ofText "X1.5 Y2 (".toList).map Block.str = .error .wordStr := by decide +kernel
example : (Block.ofText "X1.5 Y-2".toList).map Block.str = .ok "X1.5 Y-2".toList := by
  decide +kernel

/-- **C20** (words): for every word list, verified or not and whatever the values: grouping the
words in printing order gives the same gcodes and left-over words. -/
theorem C20_words (ws : List Word) (gs : List GCode) (mp : List Word)
    (h : words2gcodes ws = .ok (gs, mp))
    (hm : ∀ g ∈ gs, ∀ w ∈ mp, w.letter ∉ g.cls.params) :
    ∃ gs', words2gcodes (gs.flatMap (fun g => g.word :: g.sortedParams) ++ mp) = .ok (gs', mp) ∧
      List.Forall₂ SameGCode gs gs' := by
  have hp := C18_params ws gs mp h
  obtain ⟨ho, hu⟩ := words2gcodes_ordered h
  refine ⟨gs.map canon, regroup_canon gs mp (fun g hg => (hp g hg).2.2.1)
    (fun g hg => ⟨(hp g hg).1, (hp g hg).2.1⟩) ho (fun g hg => (hp g hg).2.2.2) hu hm, ?_⟩
  rw [List.forall₂_map_right_iff]
  exact List.forall₂_same.2 (fun g _ => canon_same g)

/-- The condition of C20 cannot be dropped: a parameter written before the gcode that accepts it is
a left-over word at first, and one of its parameters after printing and reading. -/
theorem C20_condition_needed : ∃ b b', Block.ofText "X1 G1 Y2".toList = .ok b ∧
    Block.ofText b.str = .ok b' ∧ b.modalParams ≠ [] ∧ b'.modalParams = [] :=
  ⟨⟨[⟨'X', .num 1⟩, ⟨'G', .num 1⟩, ⟨'Y', .num 2⟩], [⟨.linearMove, ⟨'G', .num 1⟩, [⟨'Y', .num 2⟩], false⟩],
    [⟨'X', .num 1⟩]⟩,
   ⟨[⟨'G', .num 1⟩, ⟨'Y', .num 2⟩, ⟨'X', .num 1⟩],
    [⟨.linearMove, ⟨'G', .num 1⟩, [⟨'Y', .num 2⟩, ⟨'X', .num 1⟩], false⟩], []⟩,
   by decide +kernel, by decide +kernel, by decide, rfl⟩

/-- Nor can program names be allowed next to left-over words: the name swallows them. -/
theorem C20_names_excluded : ∃ b b', Block.ofText "X1 Oabc".toList = .ok b ∧
    Block.ofText b.str = .ok b' ∧ b.modalParams ≠ [] ∧ b'.modalParams = [] :=
  ⟨⟨[⟨'X', .num 1⟩, ⟨'O', .str "abc".toList⟩], [⟨.programName, ⟨'O', .str "abc".toList⟩, [], false⟩],
    [⟨'X', .num 1⟩]⟩,
   ⟨[⟨'O', .str "abc X1".toList⟩], [⟨.programName, ⟨'O', .str "abc X1".toList⟩, [], false⟩], []⟩,
   by decide +kernel, by decide +kernel, by decide, rfl⟩

/-! ## C21 -/

/-- The letters that words of a class can have. -/
def classLetters (c : Cls) : List Char :=
  (c.wordKey.map Prod.fst).toList ++
    (c.matcher.map (fun f => match f with | .letter l => l | .range l _ _ => l | .oneOf l _ => l)).toList

theorem wordClass_letter {w : Word} {c : Cls} (h : wordClass w = some c) :
    w.letter ∈ classLetters c := by
  obtain ⟨-, hc⟩ := (C15_lookup _ w c).1 h
  unfold classLetters
  rcases hc with ⟨l, q, hk, rfl⟩ | ⟨-, f, hf, ht⟩
  · simp [hk]
  · rw [hf]
    cases f <;> simp only [Matcher.test, Bool.and_eq_true, beq_iff_eq] at ht <;> simp [ht]

/-- Table check: a gcode does not accept, as a parameter, the letter of a gcode that is executed at
the same time or later. -/
theorem letters_later (c d : Cls) (h : c.order ≤ d.order) (l : Char) (hl : l ∈ classLetters d) :
    l ∉ c.params := by
  have h1 := Cls.forall_of_all (p := fun c => Cls.all.all (fun d =>
    !(decide (c.order ≤ d.order)) || (classLetters d).all (fun l => !c.params.contains l)))
    (by decide +kernel) c
  have h2 := List.all_eq_true.1 h1 d (Cls.mem_all d)
  simp only [h, decide_true, Bool.not_true, Bool.false_or, List.all_eq_true] at h2
  simpa using h2 l hl

/-- **C21**: the gcodes of a block, printed in execution order (stable) and followed by the
left-over words, read back as the same gcodes and left-over words: the execution order is an order
in which they can stand on a line. -/
theorem C21_exec_order (t : List Char) (b : Block) (h : Block.ofText t = .ok b)
    (hp : ∀ w ∈ b.words, PlainWord w)
    (hm : ∀ g ∈ b.gcodes, ∀ w ∈ b.modalParams, w.letter ∉ g.cls.params)
    (gs : List GCode) (hs : StableSorted b.gcodes gs) :
    ∃ b', Block.ofText (Block.str ⟨b.words, gs, b.modalParams⟩) = .ok b' ∧
      List.Forall₂ SameGCode gs b'.gcodes ∧ b'.modalParams = b.modalParams ∧
      execSort b'.gcodes = b'.gcodes := by
  have hb := block_ok h
  obtain ⟨hperm, hsorted, -⟩ := hs
  have ho : Ordered gs := by
    refine List.Pairwise.imp_of_mem ?_ hsorted
    intro x y hx hy hxy
    exact letters_later _ _ hxy _ (wordClass_letter (hb.cls y (hperm.mem_iff.1 hy)))
  have := print_reread gs b.modalParams [] [] blank_nil blank_nil
    (fun g hg => hb.cls g (hperm.mem_iff.1 hg)) (fun g hg => hb.ok g (hperm.mem_iff.1 hg)) ho
    (fun g hg => hb.ws g (hperm.mem_iff.1 hg)) hb.unused (fun g hg => hm g (hperm.mem_iff.1 hg))
    (fun w hw => hp w (hb.perm.mem_iff.1
      (((hperm.flatMap_right _).append_right _).mem_iff.1 hw)))
    (fun hc => hb.noConflict (conflict_perm hperm hc))
  rw [List.nil_append, List.append_nil] at this
  refine ⟨_, this, ?_, rfl, ?_⟩
  · rw [List.forall₂_map_right_iff]
    exact List.forall₂_same.2 (fun g _ => canon_same g)
  · apply List.Pairwise.insertionSort_eq
    rw [List.pairwise_map]
    exact hsorted

example : (Block.ofText "G1 X1 Y2 M3 S100 F200 T2 M6".toList).map
      (fun b => Block.str ⟨b.words, execSort b.gcodes, b.modalParams⟩) =
    .ok "F200 S100 T2 M06 M03 G01 X1 Y2".toList := by decide +kernel
example : (Block.ofText "S100 G96 D50".toList).map
      (fun b => Block.str ⟨b.words, execSort b.gcodes, b.modalParams⟩) =
    .ok "S100 G96 D50".toList := by decide +kernel

/-- **C21** (words): for every word list; without left-over words there is no condition at all. -/
theorem C21_words (ws : List Word) (gs : List GCode) (mp : List Word)
    (h : words2gcodes ws = .ok (gs, mp))
    (out : List GCode) (hs : StableSorted gs out) :
    ∃ out', words2gcodes (out.flatMap (fun g => g.word :: g.sortedParams)) = .ok (out', []) ∧
      List.Forall₂ SameGCode out out' := by
  have hp := C18_params ws gs mp h
  obtain ⟨hperm, hsorted, -⟩ := hs
  have ho : Ordered out := by
    refine List.Pairwise.imp_of_mem ?_ hsorted
    intro x y hx hy hxy
    exact letters_later _ _ hxy _ (wordClass_letter (hp y (hperm.mem_iff.1 hy)).2.2.1)
  have := regroup_canon out [] (fun g hg => (hp g (hperm.mem_iff.1 hg)).2.2.1)
    (fun g hg => ⟨(hp g (hperm.mem_iff.1 hg)).1, (hp g (hperm.mem_iff.1 hg)).2.1⟩) ho
    (fun g hg => (hp g (hperm.mem_iff.1 hg)).2.2.2) (by simp) (by simp)
  unfold printedWords at this
  rw [List.append_nil] at this
  refine ⟨out.map canon, this, ?_⟩
  rw [List.forall₂_map_right_iff]
  exact List.forall₂_same.2 (fun g _ => canon_same g)

/-- In an arbitrary order this fails: `G96 S…` takes the speed as its parameter. -/
theorem C21_order_matters : ∃ b b', Block.ofText "S100 G96".toList = .ok b ∧
    Block.ofText (Block.str ⟨b.words, b.gcodes.reverse, b.modalParams⟩) = .ok b' ∧
    b.gcodes.length = 2 ∧ b'.gcodes.length = 1 :=
  ⟨⟨[⟨'S', .num 100⟩, ⟨'G', .num 96⟩], [⟨.spindleSpeed, ⟨'S', .num 100⟩, [], false⟩,
      ⟨.spindleConstantSurfaceSpeedMode, ⟨'G', .num 96⟩, [], false⟩], []⟩,
   ⟨[⟨'G', .num 96⟩, ⟨'S', .num 100⟩],
    [⟨.spindleConstantSurfaceSpeedMode, ⟨'G', .num 96⟩, [⟨'S', .num 100⟩], false⟩], []⟩,
   by decide +kernel, by decide +kernel, rfl, rfl⟩

end Pygcode.Props
