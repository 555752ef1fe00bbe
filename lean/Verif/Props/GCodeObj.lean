import Verif.Props.Grouping
import Verif.Lemmas.Classes

/-!
# Properties C09 (block access), C19, C22–C25: gcode objects and blocks
-/

namespace Pygcode.Props
open Pygcode Pygcode.Spec

/-! ## C09: access by letter -/

/-- **C09**: `block.<letter>` is the first word of the block with that letter, or `None`; for
something that is not a word letter an `AttributeError`. -/
theorem C09_block_letter (b : Block) (l : Char) :
    (wordKind l = none → b.letter l = .error .attribute) ∧
    (wordKind l ≠ none → ∀ w, b.letter l = .ok (some w) ↔
      ∃ pre post, b.words = pre ++ w :: post ∧ w.letter = l ∧ ∀ x ∈ pre, x.letter ≠ l) ∧
    (wordKind l ≠ none → (b.letter l = .ok none ↔ ∀ x ∈ b.words, x.letter ≠ l)) := by
  refine ⟨?_, ?_, ?_⟩
  · intro h; unfold Block.letter; rw [h]; rfl
  · intro h w
    have hs : (wordKind l).isSome = true := Option.isSome_iff_ne_none.2 h
    unfold Block.letter
    rw [if_pos hs, Except.ok.injEq, List.find?_eq_some_iff_append]
    constructor
    · rintro ⟨h1, pre, post, h2, h3⟩
      exact ⟨pre, post, h2, by simpa using h1, fun x hx => by simpa using h3 x hx⟩
    · rintro ⟨pre, post, h2, h1, h3⟩
      exact ⟨by simpa using h1, pre, post, h2, fun x hx => by simpa using h3 x hx⟩
  · intro h
    have hs : (wordKind l).isSome = true := Option.isSome_iff_ne_none.2 h
    unfold Block.letter
    rw [if_pos hs, Except.ok.injEq, List.find?_eq_none]
    constructor <;> intro h x hx <;> simpa using h x hx

example : (Block.ofText "G1 X1 G91 Y2 F3 F4".toList (verify := false)).bind (fun b => b.letter 'F') =
    .ok (some ⟨'F', .num 3⟩) := by decide +kernel

/-! ## C19 -/

/-- Two gcodes of the list have the same word or the same modal group. -/
def Conflict (gs : List GCode) : Prop :=
  ∃ (i j : ℕ) (a b : GCode), i < j ∧ gs[i]? = some a ∧ gs[j]? = some b ∧
    (a.word = b.word ∨ (a.cls.group = b.cls.group ∧ a.cls.group ≠ none))

theorem assertLoop_spec (gs : List GCode) (ws : List Word) (grps : List ℕ) :
    (Block.assertLoop ws grps gs = .ok () ∨ Block.assertLoop ws grps gs = .error .assertion) ∧
    (Block.assertLoop ws grps gs = .ok () ↔
      (∀ g ∈ gs, g.word ∉ ws ∧ ∀ k, g.cls.group = some k → k ∉ grps) ∧
      gs.Pairwise (fun a b => a.word ≠ b.word ∧
        ∀ k, a.cls.group = some k → b.cls.group ≠ some k)) := by
  induction gs generalizing ws grps with
  | nil => simp [Block.assertLoop]
  | cons g gs ih =>
    unfold Block.assertLoop
    by_cases hw : g.word ∈ ws
    · rw [if_pos (by simpa using hw)]
      refine ⟨.inr rfl, ?_⟩
      constructor
      · intro h; cases h
      · rintro ⟨h, -⟩; exact absurd hw (h g (by simp)).1
    · rw [if_neg (by simpa using hw)]
      cases hg : g.cls.group with
      | none =>
        simp only
        refine ⟨(ih _ _).1, ?_⟩
        rw [(ih _ _).2]
        constructor
        · rintro ⟨h1, h2⟩
          refine ⟨?_, ?_⟩
          · intro x hx
            rcases List.mem_cons.1 hx with rfl | hx
            · exact ⟨hw, by simp [hg]⟩
            · exact ⟨fun h => (h1 x hx).1 (by simp [h]), (h1 x hx).2⟩
          · rw [List.pairwise_cons]
            refine ⟨fun x hx => ⟨fun h => (h1 x hx).1 (by simp [h]), by simp [hg]⟩, h2⟩
        · rintro ⟨h1, h2⟩
          rw [List.pairwise_cons] at h2
          refine ⟨fun x hx => ⟨?_, (h1 x (by simp [hx])).2⟩, h2.2⟩
          intro h
          rcases List.mem_cons.1 h with h | h
          · exact (h2.1 x hx).1 h.symm
          · exact (h1 x (by simp [hx])).1 h
      | some k =>
        simp only
        by_cases hk : k ∈ grps
        · rw [if_pos (by simpa using hk)]
          refine ⟨.inr rfl, ?_⟩
          constructor
          · intro h; cases h
          · rintro ⟨h, -⟩; exact absurd hk ((h g (by simp)).2 k hg)
        · rw [if_neg (by simpa using hk)]
          refine ⟨(ih _ _).1, ?_⟩
          rw [(ih _ _).2]
          constructor
          · rintro ⟨h1, h2⟩
            refine ⟨?_, ?_⟩
            · intro x hx
              rcases List.mem_cons.1 hx with rfl | hx
              · refine ⟨hw, fun k' hk' => ?_⟩
                rw [hg] at hk'; cases hk'; exact hk
              · exact ⟨fun h => (h1 x hx).1 (by simp [h]),
                  fun k' hk' h => (h1 x hx).2 k' hk' (by simp [h])⟩
            · rw [List.pairwise_cons]
              refine ⟨fun x hx => ⟨fun h => (h1 x hx).1 (by simp [h]), ?_⟩, h2⟩
              intro k' hk' h
              rw [hg] at hk'; cases hk'
              exact (h1 x hx).2 k h (by simp)
          · rintro ⟨h1, h2⟩
            rw [List.pairwise_cons] at h2
            refine ⟨fun x hx => ⟨?_, ?_⟩, h2.2⟩
            · intro h
              rcases List.mem_cons.1 h with h | h
              · exact (h2.1 x hx).1 h.symm
              · exact (h1 x (by simp [hx])).1 h
            · intro k' hk' h
              rcases List.mem_cons.1 h with rfl | h
              · exact (h2.1 x hx).2 _ hg hk'
              · exact (h1 x (by simp [hx])).2 k' hk' h

theorem assert_conflict (gs : List GCode) :
    Block.assertLoop [] [] gs = .ok () ↔ ¬ Conflict gs := by
  rw [(assertLoop_spec gs [] []).2]
  simp only [List.not_mem_nil, not_false_iff, implies_true, and_self, true_and]
  rw [List.pairwise_iff_getElem]
  constructor
  · rintro h ⟨i, j, a, b, hij, ha, hb, hc⟩
    obtain ⟨hi, rfl⟩ := List.getElem?_eq_some_iff.1 ha
    obtain ⟨hj, rfl⟩ := List.getElem?_eq_some_iff.1 hb
    have := h i j hi hj hij
    rcases hc with hc | ⟨hc, hne⟩
    · exact this.1 hc
    · obtain ⟨k, hk⟩ := Option.ne_none_iff_exists'.1 hne
      exact this.2 k hk (hc ▸ hk)
  · intro h i j hi hj hij
    refine ⟨fun he => h ⟨i, j, _, _, hij, List.getElem?_eq_getElem hi, List.getElem?_eq_getElem hj,
      .inl he⟩, fun k hk hk' => h ⟨i, j, _, _, hij, List.getElem?_eq_getElem hi,
      List.getElem?_eq_getElem hj, .inr ⟨hk.trans hk'.symm, by simp [hk]⟩⟩⟩

/-- **C19**: for text whose words can be grouped, the verified block is refused
(`AssertionError`) iff two gcodes have the same word or the same modal group, and otherwise built;
without verification it is always built. -/
theorem C19_verify (t : List Char) (ws : List Word) (gs : List GCode) (mp : List Word)
    (h1 : text2words (cleanText t) = .ok ws) (h2 : words2gcodes ws = .ok (gs, mp)) :
    (Conflict gs → Block.ofText t = .error .assertion) ∧
    (¬ Conflict gs → Block.ofText t = .ok ⟨ws, gs, mp⟩) ∧
    Block.ofText t (verify := false) = .ok ⟨ws, gs, mp⟩ := by
  unfold Block.ofText
  rw [h1]
  simp only [h2]
  refine ⟨fun hc => ?_, fun hc => ?_, rfl⟩
  · have := (assertLoop_spec gs [] []).1.resolve_left (fun h => (assert_conflict gs).1 h hc)
    rw [this]; rfl
  · rw [(assert_conflict gs).2 hc]; rfl

/-- **C19**: the block is not built at all when its text has no words or they cannot be grouped,
with the error of that step. -/
theorem C19_other_errors (t : List Char) (v : Bool) (e : Err) :
    (text2words (cleanText t) = .error e → Block.ofText t v = .error e) ∧
    (∀ ws, text2words (cleanText t) = .ok ws → words2gcodes ws = .error e →
      Block.ofText t v = .error e) := by
  constructor
  · intro h; unfold Block.ofText; rw [h]
  · intro ws h h'; unfold Block.ofText; rw [h]; simp only [h']

example : Block.ofText "G1 X1 G0 Y2".toList = .error .assertion := by decide +kernel
example : Block.ofText "G1 X1 G80 G17 G90".toList ≠ .error .assertion := by decide +kernel

/-! ## C22 -/

/-- What the constructor guarantees: parameters have distinct letters, all accepted. -/
def GOK (g : GCode) : Prop :=
  (g.params.map Word.letter).Nodup ∧ ∀ p ∈ g.params, p.letter ∈ g.cls.params

/-- All parameter letters of all classes are upper-case letters of the word table. -/
theorem param_letters_known (c : Cls) (l : Char) (h : l ∈ c.params) :
    l.toUpper = l ∧ (wordKind l).isSome = true := by
  have := Cls.forall_of_all (p := fun c => c.params.all (fun l => l.toUpper == l &&
    (wordKind l).isSome)) (by decide +kernel) c
  have := List.all_eq_true.1 this l h
  simpa using this

/-- `Word(letter, v)` succeeds for these letters. -/
theorem ofNum_ok (l : Char) (v : ℚ) (h : l.toUpper = l) (hk : (wordKind l).isSome = true) :
    ∃ w, Word.ofNum l v = .ok w ∧ w.letter = l := by
  obtain ⟨k, hk⟩ := Option.isSome_iff_exists.1 hk
  unfold Word.ofNum
  simp only [h, hk]
  cases k <;> exact ⟨_, rfl, rfl⟩

theorem param_some_iff (g : GCode) (hg : GOK g) (l : Char) (w : Word) :
    g.param l = some w ↔ w ∈ g.params ∧ w.letter = l := by
  unfold GCode.param
  constructor
  · intro h
    exact ⟨List.mem_of_find?_eq_some h, by simpa using List.find?_some h⟩
  · rintro ⟨hw, rfl⟩
    have hnd := hg.1
    generalize g.params = ps at *
    induction ps with
    | nil => simp at hw
    | cons p ps ih =>
      rw [List.map_cons, List.nodup_cons] at hnd
      rw [List.find?_cons]
      by_cases hp : p.letter = w.letter
      · have : p = w := by
          rcases List.mem_cons.1 hw with h | h
          · exact h.symm
          · exfalso; apply hnd.1; rw [hp]; exact List.mem_map.2 ⟨w, h, rfl⟩
        simp [this]
      · have : (p.letter == w.letter) = false := by simpa using hp
        rw [this]
        simp only
        apply ih
        · rcases List.mem_cons.1 hw with h | h
          · exact absurd (by rw [h]) hp
          · exact h
        · exact hnd.2

theorem param_none_iff (g : GCode) (l : Char) :
    g.param l = none ↔ l ∉ g.params.map Word.letter := by
  unfold GCode.param
  rw [List.find?_eq_none, List.mem_map]
  constructor
  · rintro h ⟨w, hw, rfl⟩; exact h w hw (by simp)
  · intro h w hw he; exact h ⟨w, hw, by simpa using he⟩

/-- **C22** (assignment): for an accepted letter `g.K = v` succeeds; afterwards `g.K` is `v`
converted to the letter's type, every other parameter and the word are unchanged, and the
parameters are still distinct and accepted. -/
theorem C22_set (g : GCode) (hg : GOK g) (l : Char) (v : ℚ) (hl : l ∈ g.cls.params) :
    ∃ g' w, Word.ofNum l v = .ok w ∧ g.set l v = .ok g' ∧ GOK g' ∧
      g'.get l = .ok (some w.val) ∧ (∀ k, k ≠ l → g'.get k = g.get k) ∧
      g'.cls = g.cls ∧ g'.word = g.word := by
  obtain ⟨hup, hk⟩ := param_letters_known g.cls l hl
  obtain ⟨w, hw, hwl⟩ := ofNum_ok l v hup hk
  have hc : g.cls.params.contains l = true := by simpa using hl
  by_cases hin : l ∈ g.params.map Word.letter
  · have hset : g.set l v = .ok { g with params := g.params.map (fun p => if p.letter = l then w else p) } := by
      unfold GCode.set
      simp only [hc, hw, List.contains_eq_mem, hin, decide_true, if_true]
    have hlet : (g.params.map (fun p => if p.letter = l then w else p)).map Word.letter =
        g.params.map Word.letter := by
      rw [List.map_map]
      apply List.map_congr_left
      intro p _
      by_cases hp : p.letter = l
      · simp [hp, hwl]
      · simp [hp]
    have hg' : GOK { g with params := g.params.map (fun p => if p.letter = l then w else p) } := by
      refine ⟨by rw [hlet]; exact hg.1, ?_⟩
      intro p hp
      obtain ⟨q, hq, rfl⟩ := List.mem_map.1 hp
      by_cases hql : q.letter = l
      · simp only [hql, if_true, hwl]; exact hl
      · simp only [hql, if_false]; exact hg.2 q hq
    refine ⟨_, w, hw, hset, hg', ?_, ?_, rfl, rfl⟩
    · unfold GCode.get
      rw [if_pos hc]
      have : GCode.param { g with params := g.params.map (fun p => if p.letter = l then w else p) } l
          = some w := by
        rw [param_some_iff _ hg']
        refine ⟨?_, hwl⟩
        obtain ⟨p, hp, hpl⟩ := List.mem_map.1 hin
        exact List.mem_map.2 ⟨p, hp, by simp [hpl]⟩
      rw [this]; rfl
    · intro k hkl
      unfold GCode.get
      have : GCode.param { g with params := g.params.map (fun p => if p.letter = l then w else p) } k
          = g.param k := by
        unfold GCode.param
        simp only [List.find?_map]
        have hf : ((fun x : Word => x.letter == k) ∘ fun p => if p.letter = l then w else p) =
            (fun x => x.letter == k) := by
          funext p
          by_cases hp : p.letter = l
          · simp only [Function.comp, hp, if_true, hwl]
          · simp [Function.comp, hp]
        rw [hf]
        cases hfind : g.params.find? (fun x => x.letter == k) with
        | none => rfl
        | some p =>
          have hpk : p.letter = k := by simpa using List.find?_some hfind
          simp [hpk, hkl]
      rw [this]
  · have hset : g.set l v = .ok { g with params := g.params ++ [w] } := by
      unfold GCode.set GCode.addParam
      simp only [hc, hw, List.contains_eq_mem, hin, decide_false, if_true, hwl, hl, decide_true]
      rfl
    have hg' : GOK { g with params := g.params ++ [w] } := by
      refine ⟨?_, ?_⟩
      · show ((g.params ++ [w]).map Word.letter).Nodup
        rw [List.map_append, List.nodup_append]
        refine ⟨hg.1, by simp, ?_⟩
        intro a ha b hb
        simp [hwl] at hb; subst hb
        rintro rfl; exact hin ha
      · intro p hp
        rcases List.mem_append.1 hp with hp | hp
        · exact hg.2 p hp
        · simp at hp; subst hp; show p.letter ∈ g.cls.params; rw [hwl]; exact hl
    refine ⟨_, w, hw, hset, hg', ?_, ?_, rfl, rfl⟩
    · unfold GCode.get
      rw [if_pos hc]
      have : GCode.param { g with params := g.params ++ [w] } l = some w := by
        rw [param_some_iff _ hg']; exact ⟨by simp, hwl⟩
      rw [this]; rfl
    · intro k hkl
      unfold GCode.get
      have : GCode.param { g with params := g.params ++ [w] } k = g.param k := by
        unfold GCode.param
        simp only [List.find?_append]
        have : [w].find? (fun x => x.letter == k) = none := by
          simp [hwl, Ne.symm hkl]
        rw [this, Option.or_none]
      rw [this]

/-- **C22** (type): for every parameter letter other than `L` (an `int`) and `T` (a `str`) the
value read back is the number assigned; `L` truncates towards zero. -/
theorem C22_readback (l : Char) (v : ℚ) (w : Word) (h : Word.ofNum l v = .ok w)
    (hup : l.toUpper = l) :
    (wordKind l = some .flt → w.val = .num v) ∧
    (wordKind l = some .code → w.val = .num v) ∧
    (wordKind l = some .posint → w.val = .num (truncQ v)) := by
  refine ⟨?_, ?_, ?_⟩ <;> intro hk <;> unfold Word.ofNum at h <;> simp only [hup, hk] at h <;>
    cases h <;> rfl

/-- **C22** (`add_parameter`): accepted exactly if the class allows the letter and it is not set
yet; otherwise `GCodeParameterError`. -/
theorem C22_add (g : GCode) (w : Word) :
    (w.letter ∈ g.cls.params ∧ g.param w.letter = none →
      ∃ g', g.addParam w = .ok g' ∧ (GOK g → GOK g') ∧ (GOK g → g'.param w.letter = some w) ∧
        ∀ k, k ≠ w.letter → g'.param k = g.param k) ∧
    (¬ (w.letter ∈ g.cls.params ∧ g.param w.letter = none) → g.addParam w = .error .param) := by
  rw [param_none_iff]
  constructor
  · rintro ⟨hl, hn⟩
    have hadd : g.addParam w = .ok { g with params := g.params ++ [w] } := by
      unfold GCode.addParam
      simp only [List.contains_eq_mem, hl, hn, decide_true, decide_false]; rfl
    have hok : GOK g → GOK { g with params := g.params ++ [w] } := by
      intro hg
      refine ⟨?_, ?_⟩
      · show ((g.params ++ [w]).map Word.letter).Nodup
        rw [List.map_append, List.nodup_append]
        refine ⟨hg.1, by simp, ?_⟩
        intro a ha b hb
        simp at hb; subst hb
        rintro rfl; exact hn ha
      · intro p hp
        rcases List.mem_append.1 hp with hp | hp
        · exact hg.2 p hp
        · simp at hp; subst hp; exact hl
    refine ⟨_, hadd, hok, ?_, ?_⟩
    · intro hg
      rw [param_some_iff _ (hok hg)]; exact ⟨by simp, rfl⟩
    · intro k hk
      unfold GCode.param
      simp only [List.find?_append]
      have : [w].find? (fun x => x.letter == k) = none := by simp [Ne.symm hk]
      rw [this, Option.or_none]
  · intro h
    unfold GCode.addParam
    by_cases hl : w.letter ∈ g.cls.params
    · have hn : w.letter ∈ g.params.map Word.letter := by
        by_contra hn; exact h ⟨hl, hn⟩
      simp only [List.contains_eq_mem, hl, hn, decide_true]; rfl
    · simp only [List.contains_eq_mem, hl, decide_false]; rfl

/-- **C22** (reading): an accepted but absent parameter reads as `None`, a letter the class does
not accept is an `AttributeError`. -/
theorem C22_get (g : GCode) (l : Char) :
    (l ∈ g.cls.params → (∀ p ∈ g.params, p.letter ≠ l) → g.get l = .ok none) ∧
    (l ∉ g.cls.params → g.get l = .error .attribute) := by
  constructor
  · intro hl hn
    unfold GCode.get
    rw [if_pos (by simpa using hl)]
    have : g.param l = none := by
      rw [param_none_iff, List.mem_map]; rintro ⟨w, hw, he⟩; exact hn w hw he
    rw [this]; rfl
  · intro hl
    unfold GCode.get
    rw [if_neg (by simpa using hl)]

/-- **C22** (`get_param_dict`): exactly the parameters whose letter is white-listed; no letter
occurs twice. -/
theorem C22_param_dict (g : GCode) (hg : GOK g) (ls : Option (List Char)) (l : Char) (v : Val) :
    ((l, v) ∈ g.paramDict ls ↔ g.get l = .ok (some v) ∧ ∀ xs, ls = some xs → l ∈ xs) ∧
    ((g.paramDict ls).map Prod.fst).Nodup := by
  constructor
  · unfold GCode.paramDict GCode.get
    rw [List.mem_map]
    constructor
    · rintro ⟨w, hw, he⟩
      obtain ⟨hw1, hw2⟩ := List.mem_filter.1 hw
      cases he
      have hc : g.cls.params.contains w.letter = true := by simpa using hg.2 w hw1
      rw [if_pos hc, (param_some_iff g hg w.letter w).2 ⟨hw1, rfl⟩]
      refine ⟨rfl, ?_⟩
      rintro xs rfl
      simpa using hw2
    · rintro ⟨h1, h2⟩
      split at h1
      · simp only [Except.ok.injEq] at h1
        obtain ⟨w, hw, hv⟩ := Option.map_eq_some_iff.1 h1
        obtain ⟨hw1, hwl⟩ := (param_some_iff g hg l w).1 hw
        refine ⟨w, List.mem_filter.2 ⟨hw1, ?_⟩, by rw [hwl, hv]⟩
        cases ls with
        | none => rfl
        | some xs => simpa [hwl] using h2 xs rfl
      · cases h1
  · unfold GCode.paramDict
    rw [List.map_map]
    exact List.Nodup.sublist ((List.filter_sublist).map Word.letter) hg.1

/-- A non-trivial gcode: `G1 X3 Y-2 F…` style parameters. -/
def sampleG : GCode := ⟨.linearMove, ⟨'G', .num 1⟩, [⟨'X', .num 3⟩, ⟨'Y', .num (-2)⟩], false⟩

example : GOK sampleG := by unfold GOK sampleG; decide +kernel
example : (sampleG.set 'X' 7).map GCode.params = .ok [⟨'X', .num 7⟩, ⟨'Y', .num (-2)⟩] := by
  decide +kernel
example : sampleG.addParam ⟨'X', .num 1⟩ = .error .param := by decide +kernel
example : sampleG.addParam ⟨'R', .num 1⟩ = .error .param := by decide +kernel

/-! ## C23 -/

/-- **C23**: `modal_copy` of a well-formed gcode never raises, keeps class and word, and keeps
exactly the parameters with a modal letter (in order). -/
theorem C23_modal_copy (g : GCode) (hg : GOK g) :
    ∃ m, g.modalCopy = .ok m ∧ GOK m ∧ m.cls = g.cls ∧ m.word = g.word ∧ m.ws = false ∧
      m.params = g.params.filter (fun w => decide (w.letter ∈ g.cls.modalParams)) ∧
      ∀ l, m.param l = if l ∈ g.cls.modalParams then g.param l else none := by
  have hf : g.params.filter (fun w => g.cls.modalParams.contains w.letter) =
      g.params.filter (fun w => decide (w.letter ∈ g.cls.modalParams)) := by
    apply List.filter_congr; intro w _; simp
  have h1 : ∀ p ∈ g.params.filter (fun w => decide (w.letter ∈ g.cls.modalParams)),
      p.letter ∈ g.cls.params := fun p hp => hg.2 p (List.mem_of_mem_filter hp)
  have h2 : ((g.params.filter (fun w => decide (w.letter ∈ g.cls.modalParams))).map
      Word.letter).Nodup := List.Nodup.sublist ((List.filter_sublist).map Word.letter) hg.1
  refine ⟨⟨g.cls, g.word, g.params.filter (fun w => decide (w.letter ∈ g.cls.modalParams)), false⟩,
    ?_, ⟨h2, h1⟩, rfl, rfl, rfl, rfl, ?_⟩
  · unfold GCode.modalCopy; rw [hf]; exact make_ok _ _ _ h1 h2
  · intro l
    unfold GCode.param
    simp only [List.find?_filter]
    by_cases hl : l ∈ g.cls.modalParams
    · rw [if_pos hl]
      congr 1
      funext w
      by_cases hw : w.letter = l
      · simp [hw, hl]
      · simp [hw]
    · rw [if_neg hl, List.find?_eq_none]
      intro w _ hw
      simp only [Bool.and_eq_true, decide_eq_true_eq, beq_iff_eq] at hw
      rw [hw.2] at hw
      exact hl hw.1

/-- **C23**: taking the modal copy twice is the same as once. -/
theorem C23_idempotent (g m : GCode) (hg : GOK g) (h : g.modalCopy = .ok m) :
    m.modalCopy = .ok m := by
  obtain ⟨m', hm', hok, hc, hw, hws, hp, -⟩ := C23_modal_copy g hg
  rw [h] at hm'; cases hm'
  obtain ⟨m'', hm'', -, hc', hw', hws', hp', -⟩ := C23_modal_copy m hok
  rw [hm'']
  have : m''.params = m.params := by
    rw [hp', hc, hp, List.filter_filter]
    simp
  cases m; cases m''; simp_all

/-- Non-trivial case: `G81` keeps `Z`, `R` but not `L`; `G1` keeps nothing. -/
example : (GCode.mk .drillingCycle ⟨'G', .num 81⟩
    [⟨'Z', .num 1⟩, ⟨'L', .num 3⟩, ⟨'R', .num 2⟩] false).modalCopy =
    .ok ⟨.drillingCycle, ⟨'G', .num 81⟩, [⟨'Z', .num 1⟩, ⟨'R', .num 2⟩], false⟩ := by decide +kernel
example : sampleG.modalCopy = .ok ⟨.linearMove, ⟨'G', .num 1⟩, [], false⟩ := by decide +kernel

/-! ## C24 -/

/-- **C24**: gcodes are equal iff their words are equal and they have the same parameter for every
letter. -/
theorem C24_eq_iff (a b : GCode) (ha : GOK a) (hb : GOK b) :
    a.eq b = true ↔ a.word = b.word ∧ ∀ l, a.param l = b.param l := by
  unfold GCode.eq
  rw [Bool.and_eq_true, Bool.and_eq_true, beq_iff_eq, beq_iff_eq, List.all_eq_true]
  have hnda : a.params.Nodup := List.Nodup.of_map _ ha.1
  have hndb : b.params.Nodup := List.Nodup.of_map _ hb.1
  constructor
  · rintro ⟨hw, hlen, hall⟩
    refine ⟨hw, ?_⟩
    have hsub : a.params ⊆ b.params := by
      intro w hwm
      have := hall w hwm
      simp only [beq_iff_eq] at this
      exact ((param_some_iff b hb _ _).1 this).1
    have hperm : a.params.Perm b.params :=
      (List.subperm_of_subset hnda hsub).perm_of_length_le (by omega)
    intro l
    apply Option.ext
    intro w
    rw [param_some_iff a ha, param_some_iff b hb, hperm.mem_iff]
  · rintro ⟨hw, hl⟩
    refine ⟨hw, ?_, ?_⟩
    · have hmem : ∀ w, w ∈ a.params ↔ w ∈ b.params := by
        intro w
        have h1 := param_some_iff a ha w.letter w
        have h2 := param_some_iff b hb w.letter w
        rw [hl w.letter] at h1
        constructor
        · intro h; exact (h2.1 (h1.2 ⟨h, rfl⟩)).1
        · intro h; exact (h1.1 (h2.2 ⟨h, rfl⟩)).1
      exact ((List.perm_ext_iff_of_nodup hnda hndb).2 hmem).length_eq
    · intro w hwm
      simp only [beq_iff_eq]
      rw [← hl]
      exact (param_some_iff a ha _ _).2 ⟨hwm, rfl⟩

/-- **C24**: equality of gcodes is an equivalence relation. -/
theorem C24_equivalence :
    (∀ a, GOK a → a.eq a = true) ∧
    (∀ a b, GOK a → GOK b → a.eq b = true → b.eq a = true) ∧
    (∀ a b c, GOK a → GOK b → GOK c → a.eq b = true → b.eq c = true → a.eq c = true) := by
  refine ⟨?_, ?_, ?_⟩
  · intro a ha; rw [C24_eq_iff a a ha ha]; simp
  · intro a b ha hb h
    rw [C24_eq_iff a b ha hb] at h
    rw [C24_eq_iff b a hb ha]
    exact ⟨h.1.symm, fun l => (h.2 l).symm⟩
  · intro a b c ha hb hc h h'
    rw [C24_eq_iff a b ha hb] at h
    rw [C24_eq_iff b c hb hc] at h'
    rw [C24_eq_iff a c ha hc]
    exact ⟨h.1.trans h'.1, fun l => (h.2 l).trans (h'.2 l)⟩

/-- **C24**: giving the constructor its parameters in another order gives an equal gcode (or the
same error). -/
theorem C24_permute (c : Cls) (w : Word) (ps qs : List Word) (h : ps.Perm qs) :
    (∃ a b, GCode.make c w ps = .ok a ∧ GCode.make c w qs = .ok b ∧ a.eq b = true) ∨
    (GCode.make c w ps = .error .param ∧ GCode.make c w qs = .error .param) := by
  by_cases hc : (∀ p ∈ ps, p.letter ∈ c.params) ∧ (ps.map Word.letter).Nodup
  · have hc' : (∀ p ∈ qs, p.letter ∈ c.params) ∧ (qs.map Word.letter).Nodup :=
      ⟨fun p hp => hc.1 p (h.mem_iff.2 hp), (h.map _).nodup_iff.1 hc.2⟩
    refine .inl ⟨_, _, make_ok c w ps hc.1 hc.2, make_ok c w qs hc'.1 hc'.2, ?_⟩
    have oka : GOK ⟨c, w, ps, false⟩ := ⟨hc.2, hc.1⟩
    have okb : GOK ⟨c, w, qs, false⟩ := ⟨hc'.2, hc'.1⟩
    rw [C24_eq_iff _ _ oka okb]
    refine ⟨rfl, fun l => Option.ext fun x => ?_⟩
    rw [param_some_iff _ oka, param_some_iff _ okb]
    show x ∈ ps ∧ _ ↔ x ∈ qs ∧ _
    rw [h.mem_iff]
  · have hc' : ¬ ((∀ p ∈ qs, p.letter ∈ c.params) ∧ (qs.map Word.letter).Nodup) := by
      rintro ⟨h1, h2⟩
      exact hc ⟨fun p hp => h1 p (h.mem_iff.1 hp), (h.map _).nodup_iff.2 h2⟩
    exact .inr ⟨make_err c w ps hc, make_err c w qs hc'⟩

example : sampleG.eq ⟨.linearMove, ⟨'G', .num 1⟩, [⟨'Y', .num (-2)⟩, ⟨'X', .num 3⟩], false⟩ = true := by
  decide +kernel
example : sampleG.eq ⟨.linearMove, ⟨'G', .num 1⟩, [⟨'Y', .num (-2)⟩], false⟩ = false := by
  decide +kernel

/-! ## C25 -/

/-- A list is the stable sort of another one by execution order: a rearrangement of it, in
non-decreasing order, in which gcodes of equal order keep their relative order. -/
def StableSorted (gs out : List GCode) : Prop :=
  out.Perm gs ∧ out.Pairwise (fun a b => a.cls.order ≤ b.cls.order) ∧
  ∀ n, out.filter (fun g => g.cls.order == n) = gs.filter (fun g => g.cls.order == n)

theorem filter_orderedInsert (n : ℕ) (g : GCode) (l : List GCode)
    (hs : l.Pairwise (fun a b => a.cls.order ≤ b.cls.order)) :
    (l.orderedInsert (fun a b => a.cls.order ≤ b.cls.order) g).filter (fun g => g.cls.order == n) =
      ((g :: l).filter (fun g => g.cls.order == n)) := by
  induction l with
  | nil => rfl
  | cons x l ih =>
    rw [List.pairwise_cons] at hs
    rw [List.orderedInsert]
    split
    · rfl
    · next hlt =>
      rw [List.filter_cons, ih hs.2]
      simp only [List.filter_cons]
      by_cases hg : g.cls.order = n
      · have hx : ¬ x.cls.order = n := by omega
        simp [hg, hx]
      · simp [hg]

theorem execSort_stable (gs : List GCode) : StableSorted gs (execSort gs) := by
  unfold execSort
  refine ⟨List.perm_insertionSort _ _, List.pairwise_insertionSort _ _, ?_⟩
  intro n
  induction gs with
  | nil => rfl
  | cons g gs ih =>
    rw [List.insertionSort_cons, filter_orderedInsert _ _ _ (List.pairwise_insertionSort _ _)]
    simp only [List.filter_cons, ih]

/-- The stable sort is determined by its description. -/
theorem stableSorted_unique (gs a b : List GCode) (ha : StableSorted gs a) (hb : StableSorted gs b) :
    a = b := by
  obtain ⟨pa, sa, fa⟩ := ha
  obtain ⟨pb, sb, fb⟩ := hb
  have hf : ∀ n, a.filter (fun g => g.cls.order == n) = b.filter (fun g => g.cls.order == n) :=
    fun n => (fa n).trans (fb n).symm
  clear fa fb
  have hp : a.Perm b := pa.trans pb.symm
  clear pa pb
  induction a generalizing b with
  | nil => exact (List.nil_perm.1 hp).symm
  | cons x a ih =>
    cases b with
    | nil => exact absurd hp (by simp)
    | cons y b =>
      rw [List.pairwise_cons] at sa sb
      have hxy : x.cls.order = y.cls.order := by
        have h1 : x.cls.order ≤ y.cls.order := by
          have : y ∈ x :: a := hp.mem_iff.2 (by simp)
          rcases List.mem_cons.1 this with rfl | h
          · exact le_refl _
          · exact sa.1 y h
        have h2 : y.cls.order ≤ x.cls.order := by
          have : x ∈ y :: b := hp.mem_iff.1 (by simp)
          rcases List.mem_cons.1 this with rfl | h
          · exact le_refl _
          · exact sb.1 x h
        omega
      have := hf x.cls.order
      rw [List.filter_cons, List.filter_cons] at this
      simp only [BEq.rfl, if_true, ← hxy, List.cons.injEq] at this
      obtain ⟨rfl, -⟩ := this
      congr 1
      refine ih b sa.2 sb.2 (fun n => ?_) (List.Perm.cons_inv hp)
      have := hf n
      rw [List.filter_cons, List.filter_cons] at this
      split at this
      · simpa using this
      · exact this

/-- **C25**: `split_gcodes` returns three parts whose concatenation is the given list (stably
sorted by execution order first, unless `sort_list` is false), with the first instance of the class
alone in the middle. -/
theorem C25_split (gs : List GCode) (c : Cls) (s : Bool) :
    ∃ a b d, splitGcodes gs c s = (a, b, d) ∧
      (s = true → StableSorted gs (a ++ b ++ d)) ∧ (s = false → a ++ b ++ d = gs) ∧
      (∀ g ∈ a, g.cls.isSub c = false) ∧
      ((b = [] ∧ d = []) ∨ ∃ g, b = [g] ∧ g.cls.isSub c = true) := by
  have key : ∀ l : List GCode, ∃ a b d,
      (match l.findIdx? (fun g => g.cls.isSub c) with
       | none => (l, [], [])
       | some i => (l.take i, (l.drop i).take 1, l.drop (i + 1))) = (a, b, d) ∧
      a ++ b ++ d = l ∧ (∀ g ∈ a, g.cls.isSub c = false) ∧
      ((b = [] ∧ d = []) ∨ ∃ g, b = [g] ∧ g.cls.isSub c = true) := by
    intro l
    cases hi : l.findIdx? (fun g => g.cls.isSub c) with
    | none =>
      rw [List.findIdx?_eq_none_iff] at hi
      exact ⟨l, [], [], rfl, by simp, fun g hg => by simpa using hi g hg, .inl ⟨rfl, rfl⟩⟩
    | some i =>
      rw [List.findIdx?_eq_some_iff_getElem] at hi
      obtain ⟨hlen, hp, hbef⟩ := hi
      refine ⟨_, _, _, rfl, ?_, ?_, .inr ⟨l[i], ?_, hp⟩⟩
      · rw [List.append_assoc, ← List.drop_drop, List.take_append_drop, List.take_append_drop]
      · intro g hg
        obtain ⟨j, hj, rfl⟩ := List.getElem_of_mem hg
        rw [List.getElem_take]
        have := hbef j (by simp at hj; omega)
        simpa using this
      · rw [List.drop_eq_getElem_cons hlen]; rfl
  unfold splitGcodes
  cases s with
  | true =>
    obtain ⟨a, b, d, h1, h2, h3, h4⟩ := key (execSort gs)
    refine ⟨a, b, d, h1, fun _ => ?_, by simp, h3, h4⟩
    rw [h2]; exact execSort_stable gs
  | false =>
    obtain ⟨a, b, d, h1, h2, h3, h4⟩ := key gs
    exact ⟨a, b, d, h1, by simp, fun _ => h2, h3, h4⟩

/-- The doctest of `split_gcodes`. -/
example : (Block.ofText "G1 X1 Y2 M9 F100 S200".toList).map
    (fun b => let (x, y, z) := splitGcodes b.gcodes .coolantOff true
              (x.map GCode.word, y.map GCode.word, z.map GCode.word)) =
    .ok ([⟨'F', .num 100⟩, ⟨'S', .num 200⟩], [⟨'M', .num 9⟩], [⟨'G', .num 1⟩]) := by decide +kernel

end Pygcode.Props
