import Verif.Lemmas.Regroup

/-!
# Grouping of one gcode word followed by other words
-/

namespace Pygcode
open Props Spec

theorem wordsWhere_filter (ps : List Word) (f : Word → Bool) (P : ℕ → Bool)
    (h : ∀ k w, ps[k]? = some w → P k = f w) : wordsWhere ps P = ps.filter f := by
  induction ps generalizing P with
  | nil => rfl
  | cons w ps ih =>
    rw [wordsWhere_cons, ih (fun k => P (k + 1)) (fun k w hk => h (k + 1) w (by simpa using hk)),
      h 0 w rfl, List.filter_cons]
    cases f w <;> rfl

/-- One gcode word followed by words that name no class or are accepted as parameters. -/
theorem grouped_single (w : Word) (c : Cls) (hw : wordClass w = some c) (ps : List Word)
    (hp : ∀ p ∈ ps, wordClass p = none ∨ p.letter ∈ c.params) :
    Grouped (w :: ps) [(c, w, ps.filter (fun p => decide (p.letter ∈ c.params)))]
      (ps.filter (fun p => decide (p.letter ∉ c.params))) := by
  let r : ℕ → Role := fun k =>
    match k with
    | 0 => .gcode c
    | k + 1 =>
      match ps[k]? with
      | none => .unused
      | some p => if p.letter ∈ c.params then .param 0 else .unused
  have hr : ∀ k p, ps[k]? = some p → r (k + 1) = if p.letter ∈ c.params then .param 0 else .unused := by
    intro k p h; simp only [r, h]
  have hno : ∀ k d, r (k + 1) ≠ .gcode d := by
    intro k d
    simp only [r]
    cases ps[k]? with
    | none => simp
    | some p => simp only; split_ifs <;> simp
  have hacc : ∀ i k p, ps[k]? = some p → (Accepts (w :: ps) r i (k + 1) ↔ i = 0 ∧ p.letter ∈ c.params) := by
    intro i k p hk
    unfold Accepts
    cases i with
    | zero => simp [r, hk]
    | succ i => simp [hno]
  have hacc0 : ∀ i k p, (w :: ps)[k]? = some p → i < k →
      (Accepts (w :: ps) r i k ↔ i = 0 ∧ p.letter ∈ c.params) := by
    intro i k p hk hi
    cases k with
    | zero => omega
    | succ k => exact hacc i k p (by simpa using hk)
  refine ⟨r, ⟨?_, ?_, ?_⟩, ?_, ?_⟩
  · intro k p d hk
    cases k with
    | zero =>
      simp at hk; subst hk
      simp [r, hw]
    | succ k =>
      have hk' : ps[k]? = some p := by simpa using hk
      constructor
      · intro h; exact absurd h (hno k d)
      · rintro ⟨h1, h2⟩
        rcases hp p (List.mem_of_getElem? hk') with h | h
        · rw [h] at h1; cases h1
        · exact absurd ((hacc 0 k p hk').2 ⟨rfl, h⟩) (h2 0 (by omega))
  · intro k p i hk
    cases k with
    | zero => simp [r]
    | succ k =>
      have hk' : ps[k]? = some p := by simpa using hk
      rw [hr k p hk']
      constructor
      · intro h
        split_ifs at h with hl
        cases h
        refine ⟨by omega, (hacc 0 k p hk').2 ⟨rfl, hl⟩, fun j hj _ hjacc => ?_⟩
        have := ((hacc j k p hk').1 hjacc).1; omega
      · rintro ⟨-, h, -⟩
        obtain ⟨rfl, hl⟩ := (hacc i k p hk').1 h
        rw [if_pos hl]
  · intro k p hk
    cases k with
    | zero =>
      simp at hk; subst hk
      simp [r, hw]
    | succ k =>
      have hk' : ps[k]? = some p := by simpa using hk
      rw [hr k p hk']
      constructor
      · intro h
        have hl : p.letter ∉ c.params := by intro hl; rw [if_pos hl] at h; cases h
        refine ⟨(hp p (List.mem_of_getElem? hk')).resolve_right hl, fun i _ hi => hl ((hacc i k p hk').1 hi).2⟩
      · rintro ⟨-, h⟩
        have hl : p.letter ∉ c.params := fun hl => h 0 (by omega) ((hacc 0 k p hk').2 ⟨rfl, hl⟩)
        rw [if_neg hl]
  · have h0 : wordsWhere (w :: ps) (fun j => r j == .param 0) = ps.filter (fun p => decide (p.letter ∈ c.params)) := by
      rw [wordsWhere_cons]
      simp only [r, reduceCtorEq, beq_eq_false_iff_ne.2, ne_eq, not_false_eq_true, Bool.false_eq_true, if_false,
        List.nil_append]
      apply wordsWhere_filter
      intro k p hk
      simp only [hk]
      by_cases hl : p.letter ∈ c.params <;> simp [hl]
    unfold gcodesOf
    rw [List.length_cons, List.range_succ_eq_map, List.filterMap_cons, List.filterMap_map]
    have hr0 : r 0 = .gcode c := rfl
    simp only [hr0, List.getElem?_cons_zero]
    refine List.cons_eq_cons.2 ⟨by rw [h0], List.filterMap_eq_nil_iff.2 ?_⟩
    intro k _
    simp only [Function.comp, Nat.succ_eq_add_one]
    cases hrk : r (k + 1) with
    | gcode d => exact absurd hrk (hno k d)
    | param i => rfl
    | unused => rfl
  · rw [wordsWhere_cons]
    simp only [r, reduceCtorEq, beq_eq_false_iff_ne.2, ne_eq, not_false_eq_true, Bool.false_eq_true, if_false,
      List.nil_append]
    apply wordsWhere_filter
    intro k p hk
    simp only [hk]
    by_cases hl : p.letter ∈ c.params <;> simp [hl]

/-- What `words2gcodes` makes of one gcode word and other words. -/
theorem words2gcodes_single (w : Word) (c : Cls) (hw : wordClass w = some c) (ps : List Word)
    (hp : ∀ p ∈ ps, wordClass p = none ∨ p.letter ∈ c.params) :
    words2gcodes (w :: ps) =
      if ((ps.filter (fun p => decide (p.letter ∈ c.params))).map Word.letter).Nodup then
        .ok ([⟨c, w, ps.filter (fun p => decide (p.letter ∈ c.params)), false⟩],
          ps.filter (fun p => decide (p.letter ∉ c.params)))
      else .error .param := by
  have hg := grouped_single w c hw ps hp
  have hmem : ∀ p ∈ ps.filter (fun p => decide (p.letter ∈ c.params)), p.letter ∈ c.params := by
    intro p h; simpa using (List.mem_filter.1 h).2
  split_ifs with hnd
  · exact words2gcodes_of_grouped hg (by
      intro d hd
      rw [List.mem_singleton] at hd
      subst hd
      exact ⟨hmem, hnd⟩)
  · obtain ⟨r, hr, hds, hun⟩ := hg
    have hu := grouping_unique (w :: ps) _ _ (roleOf_grouping (w :: ps)) hr
    rw [words2gcodes_eq, gcodesOf_congr (w :: ps) _ _ hu, hds]
    unfold makeAll
    rw [make_err _ _ _ (fun h => hnd h.2)]

end Pygcode
