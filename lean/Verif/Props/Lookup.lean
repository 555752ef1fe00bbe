import Verif.Lemmas.Classes

/-!
# Property C15: a word identifies at most one gcode class
-/

namespace Pygcode.Props
open Pygcode

/-- A class claims a word: by its `word_key`, or (if it has none) by its `word_matches`. -/
def Claims (c : Cls) (w : Word) : Prop :=
  (∃ l q, c.wordKey = some (l, q) ∧ w = ⟨l, .num q⟩) ∨
  (c.wordKey = none ∧ ∃ f, c.matcher = some f ∧ f.test w = true)

/-- **C15** (uniqueness): at most one class claims a word, whatever its value. -/
theorem C15_unique (w : Word) (c d : Cls) (hc : Claims c w) (hd : Claims d w) : c = d := by
  rcases hc with ⟨l, q, hk, rfl⟩ | ⟨hk, f, hf, ht⟩ <;> rcases hd with ⟨l', q', hk', he⟩ | ⟨hk', f', hf', ht'⟩
  · have : (l, q) = (l', q') := by simp only [Word.mk.injEq, Val.num.injEq] at he; simp [he]
    rw [← this] at hk'
    exact keys_unique c d _ hk hk'
  · have := keys_matchers c d _ f' hk hk' hf'
    rw [show keyWord (l, q) = ⟨l, .num q⟩ from rfl, ht'] at this; cases this
  · subst he
    have := keys_matchers d c _ f hk' hk hf
    rw [show keyWord (l', q') = ⟨l', .num q'⟩ from rfl, ht] at this; cases this
  · by_contra hne
    exact Matcher.disjoint_sound (matchers_disjoint c d f f' hk hk' hf hf' hne) w ht ht'

/-- **C15**: building the maps never raises, in whatever order the classes are registered. -/
theorem C15_build (cs : List Cls) (h : cs.Perm Cls.all) : ∃ m, buildMapsFrom cs = .ok m :=
  ⟨_, buildMapsFrom_ok cs (h.nodup_iff.2 Cls.all_nodup)⟩

theorem lookup_claims (cs : List Cls) (h : ∀ c, c ∈ cs) (ex : Bool) (w : Word) (c : Cls) :
    lookupIn ⟨cs.filterMap keyEntry, cs.filterMap funEntry⟩ ex w = some c ↔
      ((ex = true ∨ w.letter ∈ ['G', 'M', 'F', 'S', 'T', 'N', 'O']) ∧ Claims c w) := by
  unfold lookupIn
  by_cases hl : ex = true ∨ w.letter ∈ ['G', 'M', 'F', 'S', 'T', 'N', 'O']
  swap
  · have : (!ex && !(['G', 'M', 'F', 'S', 'T', 'N', 'O'].contains w.letter)) = true := by
      rw [not_or] at hl
      simp only [Bool.and_eq_true, Bool.not_eq_true', List.contains_eq_mem, decide_eq_false_iff_not]
      exact ⟨by simpa using hl.1, hl.2⟩
    rw [if_pos this]
    exact ⟨by simp, fun h => absurd h.1 hl⟩
  have : ¬ (!ex && !(['G', 'M', 'F', 'S', 'T', 'N', 'O'].contains w.letter)) = true := by
    simp only [Bool.and_eq_true, Bool.not_eq_true', List.contains_eq_mem, decide_eq_false_iff_not,
      not_and_or]
    rcases hl with hl | hl
    · left; simp [hl]
    · right; exact not_not.2 hl
  rw [if_neg this]
  simp only [hl, true_and]
  cases hfind : (cs.filterMap keyEntry).find? (fun e => e.1 == w) with
  | some e =>
    have hmem := List.mem_of_find?_eq_some hfind
    have hp := List.find?_some hfind
    simp only [beq_iff_eq] at hp
    rw [List.mem_filterMap] at hmem
    obtain ⟨d, -, hd⟩ := hmem
    have hcl : Claims d w ∧ e.2 = d := by
      unfold keyEntry at hd
      cases hk : d.wordKey with
      | none => rw [hk] at hd; cases hd
      | some k =>
        rw [hk] at hd
        simp at hd
        subst hd
        exact ⟨.inl ⟨k.1, k.2, hk, hp.symm⟩, rfl⟩
    simp only [Option.some.injEq]
    constructor
    · rintro rfl; rw [hcl.2]; exact hcl.1
    · intro hc; rw [hcl.2]; exact C15_unique w _ _ hcl.1 hc
  | none =>
    rw [List.find?_eq_none] at hfind
    have hnokey : ∀ (d : Cls) l q, d.wordKey = some (l, q) → w ≠ ⟨l, .num q⟩ := by
      rintro d l q hk rfl
      have := hfind (keyWord (l, q), d) (by
        rw [List.mem_filterMap]; exact ⟨d, h d, by simp [keyEntry, hk]⟩)
      simp [keyWord] at this
    simp only [Option.map_eq_some_iff]
    constructor
    · rintro ⟨e, he, rfl⟩
      have hmem := List.mem_of_find?_eq_some he
      have hp := List.find?_some he
      rw [List.mem_filterMap] at hmem
      obtain ⟨d, -, hd⟩ := hmem
      unfold funEntry at hd
      cases hk : d.wordKey with
      | some k => rw [hk] at hd; simp at hd
      | none =>
        rw [hk] at hd
        simp only [Option.isNone_none, if_true] at hd
        cases hf : d.matcher with
        | none => rw [hf] at hd; cases hd
        | some f =>
          rw [hf] at hd
          simp at hd
          subst hd
          exact .inr ⟨hk, f, hf, hp⟩
    · rintro (⟨l, q, hk, he⟩ | ⟨hk, f, hf, ht⟩)
      · exact absurd he (hnokey c l q hk)
      · have hin : (f, c) ∈ cs.filterMap funEntry := by
          rw [List.mem_filterMap]; exact ⟨c, h c, by simp [funEntry, hk, hf]⟩
        cases hff : (cs.filterMap funEntry).find? (fun e => e.1.test w) with
        | none =>
          rw [List.find?_eq_none] at hff
          exact absurd ht (hff _ hin)
        | some e =>
          refine ⟨e, rfl, ?_⟩
          have hmem := List.mem_of_find?_eq_some hff
          have hp := List.find?_some hff
          rw [List.mem_filterMap] at hmem
          obtain ⟨d, -, hd⟩ := hmem
          unfold funEntry at hd
          cases hk' : d.wordKey with
          | some k => rw [hk'] at hd; simp at hd
          | none =>
            rw [hk'] at hd
            simp only [Option.isNone_none, if_true] at hd
            cases hf' : d.matcher with
            | none => rw [hf'] at hd; cases hd
            | some f' =>
              rw [hf'] at hd
              simp at hd
              subst hd
              exact C15_unique w d c (.inr ⟨hk', f', hf', hp⟩) (.inr ⟨hk, f, hf, ht⟩)

/-- **C15**: the lookup finds exactly the class that claims the word (for words with the letters
G, M, F, S, T, N, O; with `exhaustive` for all letters). -/
theorem C15_lookup (ex : Bool) (w : Word) (c : Cls) :
    wordClassE ex w = some c ↔
      ((ex = true ∨ w.letter ∈ ['G', 'M', 'F', 'S', 'T', 'N', 'O']) ∧ Claims c w) := by
  unfold wordClassE
  rw [maps_eq]
  exact lookup_claims _ Cls.mem_all ex w c

/-- **C15**: the lookup does not depend on the order in which the classes are registered. -/
theorem C15_order (cs : List Cls) (h : cs.Perm Cls.all) (m : Maps) (hm : buildMapsFrom cs = .ok m)
    (ex : Bool) (w : Word) : lookupIn m ex w = wordClassE ex w := by
  rw [buildMapsFrom_ok cs (h.nodup_iff.2 Cls.all_nodup)] at hm
  cases hm
  apply Option.ext
  intro c
  rw [C15_lookup]
  exact lookup_claims _ (fun c => h.mem_iff.2 (Cls.mem_all c)) ex w c

/-- **C15**: every class with a `word_key` is found by that word. -/
theorem C15_found (c : Cls) (l : Char) (q : ℚ) (h : c.wordKey = some (l, q)) :
    wordClass ⟨l, .num q⟩ = some c := by
  unfold wordClass
  rw [C15_lookup]
  refine ⟨.inr ?_, .inl ⟨l, q, h, rfl⟩⟩
  have := Cls.forall_of_all (p := fun c => match c.wordKey with
    | some (l, _) => ['G', 'M', 'F', 'S', 'T', 'N', 'O'].contains l
    | none => true) (by decide +kernel) c
  simpa [h] using this

example : wordClass ⟨'G', .num (384 / 10)⟩ = some .straightProbe := by decide +kernel
example : wordClass ⟨'G', .num (386 / 10)⟩ = none := by decide +kernel
example : wordClass ⟨'X', .num 1⟩ = none := by decide +kernel
example : Claims .feedRate ⟨'F', .num (-7)⟩ := .inr ⟨by decide +kernel, .letter 'F', by decide +kernel,
  by decide +kernel⟩

end Pygcode.Props
