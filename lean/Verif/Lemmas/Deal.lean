import Verif.Lemmas.Regroup

/-! The grouping of words, read from left to right: each word is dealt to the last gcode accepting it. -/

namespace Pygcode
open Spec Props

/-- Class, word and parameters of a gcode. -/
abbrev Desc := Cls × Word × List Word

/-- The gcode at a position, if there is one. -/
def entry (ws : List Word) (role : ℕ → Role) (k : ℕ) : Option Desc :=
  match role k, ws[k]? with
  | .gcode c, some w => some (c, w, wordsWhere ws (fun j => role j == .param k))
  | _, _ => none

theorem gcodesOf_entry (ws : List Word) (role : ℕ → Role) :
    gcodesOf ws role = (List.range ws.length).filterMap (entry ws role) := rfl

/-- The word goes to the last of the gcodes that accepts it. -/
theorem grouped_param {W : List Word} {d1 d2 : List Desc} {un : List Word} {c : Cls} {x : Word} {ps : List Word}
    (h : Grouped W (d1 ++ (c, x, ps) :: d2) un) (w : Word) (hw : w.letter ∈ c.params)
    (hd : ∀ d ∈ d2, w.letter ∉ d.1.params) :
    Grouped (W ++ [w]) (d1 ++ (c, x, ps ++ [w]) :: d2) un := by
  obtain ⟨r, hr, hds, hun⟩ := h
  subst hun
  rw [gcodesOf_entry] at hds
  obtain ⟨l1, l2', hl, h1, h2⟩ := List.filterMap_eq_append_iff.1 hds
  obtain ⟨z, i, l2, rfl, hz, hi, h3⟩ := List.filterMap_eq_cons_iff.1 h2
  have hin : i < W.length := List.mem_range.1 (by rw [hl]; simp)
  have hic : r i = .gcode c ∧ W[i]? = some x ∧ wordsWhere W (fun j => r j == .param i) = ps := by
    cases hri : r i with
    | gcode d =>
      unfold entry at hi
      rw [hri, List.getElem?_eq_getElem hin] at hi
      cases hi
      exact ⟨rfl, List.getElem?_eq_getElem hin, rfl⟩
    | param _ => unfold entry at hi; rw [hri] at hi; cases hi
    | unused => unfold entry at hi; rw [hri] at hi; cases hi
  obtain ⟨hic, hix, hps⟩ := hic
  have hlt := List.pairwise_lt_range (n := W.length)
  rw [hl] at hlt
  have hmem : ∀ j, j < W.length → i < j → j ∈ l2 := by
    intro j hj hij
    have hm : j ∈ l1 ++ (z ++ i :: l2) := by rw [← hl]; exact List.mem_range.2 hj
    have hlt' := hlt
    rw [← List.append_assoc, List.pairwise_append] at hlt'
    rw [← List.append_assoc] at hm
    rcases List.mem_append.1 hm with hm | hm
    · exact absurd (hlt'.2.2 j hm i (by simp)) (by omega)
    · rcases List.mem_cons.1 hm with rfl | hm
      · omega
      · exact hm
  let r' : ℕ → Role := fun k => if k < W.length then r k else .param i
  have hold : ∀ k < W.length, r' k = r k := fun k hk => by simp [r', hk]
  have hnew : r' W.length = .param i := by simp [r']
  have hacc : ∀ j, j < W.length → (Accepts (W ++ [w]) r' j W.length ↔ ∃ c, r j = .gcode c ∧ w.letter ∈ c.params) := by
    intro j hj
    unfold Accepts
    rw [hold j hj]
    simp
  have hlast : ∀ j, i < j → j < W.length → ¬ Accepts (W ++ [w]) r' j W.length := by
    intro j hij hj ha
    obtain ⟨e, he, hl'⟩ := (hacc j hj).1 ha
    have : (e, W[j], wordsWhere W (fun k => r k == .param j)) ∈ d2 := by
      rw [← h3]
      refine List.mem_filterMap.2 ⟨j, hmem j hj hij, ?_⟩
      unfold entry
      rw [he, List.getElem?_eq_getElem hj]
    exact hd _ this hl'
  have hG : IsGrouping (W ++ [w]) r' := by
    apply grouping_extend W [w] r r' hr hold
    intro k w' hk
    obtain ⟨rfl, rfl⟩ : k = 0 ∧ w' = w := by
      cases k with
      | zero => simpa using hk.symm
      | succ k => simp at hk
    rw [Nat.add_zero, hnew]
    have hi' : Accepts (W ++ [w']) r' i W.length := (hacc i hin).2 ⟨c, hic, hw⟩
    refine ⟨fun e => ⟨(fun h => nomatch h), fun h => absurd hi' (h.2 i hin)⟩, fun j => ⟨?_, ?_⟩,
      ⟨(fun h => nomatch h), fun h => absurd hi' (h.2 i hin)⟩⟩
    · intro h
      cases h
      exact ⟨hin, hi', hlast⟩
    · rintro ⟨hj, ha, hn⟩
      rcases Nat.lt_trichotomy i j with h | h | h
      · exact absurd ha (hlast j h hj)
      · rw [h]
      · exact absurd hi' (hn i h hin)
  have hone : ∀ k, k < W.length → wordsWhere (W ++ [w]) (fun j => r' j == .param k) =
      wordsWhere W (fun j => r j == .param k) ++ (if i = k then [w] else []) := by
    intro k hk
    rw [wordsWhere_append]
    congr 1
    · apply wordsWhere_congr
      intro j hj
      rw [hold j hj]
    · rw [wordsWhere_cons]
      simp only [Nat.add_zero, hnew]
      by_cases hik : i = k
      · subst hik; simp [wordsWhere]
      · have : (Role.param i == Role.param k) = false := by simp [hik]
        rw [this, if_neg hik]; rfl
  refine ⟨r', hG, ?_, ?_⟩
  · rw [gcodesOf_entry, List.length_append, List.length_singleton, List.range_succ, hl, List.filterMap_append,
      List.filterMap_append, List.filterMap_append, List.filterMap_cons]
    have hsame : ∀ l : List ℕ, (∀ k ∈ l, k < W.length ∧ i ≠ k) →
        l.filterMap (entry (W ++ [w]) r') = l.filterMap (entry W r) := by
      intro l hl
      apply List.filterMap_congr
      intro k hk
      obtain ⟨hk1, hk2⟩ := hl k hk
      unfold entry
      rw [hold k hk1, List.getElem?_append_left hk1, hone k hk1, if_neg hk2, List.append_nil]
    have hltz : ∀ k ∈ l1 ++ z, k < i := by
      intro k hk
      rw [← List.append_assoc, List.pairwise_append] at hlt
      exact hlt.2.2 k hk i (by simp)
    have hltl : ∀ k ∈ l2, i < k := by
      intro k hk
      rw [← List.append_assoc, List.pairwise_append, List.pairwise_cons] at hlt
      exact hlt.2.1.1 k hk
    have hran : ∀ k ∈ l1 ++ (z ++ i :: l2), k < W.length := fun k hk => List.mem_range.1 (by rw [hl]; exact hk)
    rw [hsame l1 (fun k hk => ⟨hran k (by simp [hk]), by have := hltz k (by simp [hk]); omega⟩),
      hsame z (fun k hk => ⟨hran k (by simp [hk]), by have := hltz k (by simp [hk]); omega⟩),
      hsame l2 (fun k hk => ⟨hran k (by simp [hk]), by have := hltl k hk; omega⟩)]
    have hzz : z.filterMap (entry W r) = [] := List.filterMap_eq_nil_iff.2 hz
    have he : entry (W ++ [w]) r' i = some (c, x, ps ++ [w]) := by
      unfold entry
      rw [hold i hin, hic, List.getElem?_append_left hin, hix]
      simp only
      rw [hone i hin, if_pos rfl, hps]
    have hn : entry (W ++ [w]) r' W.length = none := by
      unfold entry
      rw [hnew]
    rw [hzz, h1, h3, he, List.filterMap_cons, hn]
    simp
  · rw [wordsWhere_append]
    rw [wordsWhere_none [w], List.append_nil]
    · apply wordsWhere_congr
      intro k hk
      rw [hold k hk]
    · intro k hk
      simp only [List.length_singleton] at hk
      obtain rfl : k = 0 := by omega
      rw [Nat.add_zero, hnew]; rfl

/-- Deal a word to the first gcode of the list that accepts it. -/
def give (w : Word) : List Desc → Option (List Desc)
  | [] => none
  | (c, x, ps) :: ds =>
    if w.letter ∈ c.params then some ((c, x, ps ++ [w]) :: ds) else (give w ds).map ((c, x, ps) :: ·)

/-- Deal a word; the gcodes are in reverse order. -/
def deal (st : List Desc × List Word) (w : Word) : List Desc × List Word :=
  match give w st.1 with
  | some ds => (ds, st.2)
  | none =>
    match wordClass w with
    | some c => ((c, w, []) :: st.1, st.2)
    | none => (st.1, st.2 ++ [w])

def dealt (ws : List Word) : List Desc × List Word := ws.foldl deal ([], [])

theorem give_none {w : Word} {ds : List Desc} (h : give w ds = none) : ∀ d ∈ ds, w.letter ∉ d.1.params := by
  induction ds with
  | nil => simp
  | cons d ds ih =>
    obtain ⟨c, x, ps⟩ := d
    unfold give at h
    by_cases hc : w.letter ∈ c.params
    · rw [if_pos hc] at h; cases h
    · rw [if_neg hc, Option.map_eq_none_iff] at h
      intro e he
      rcases List.mem_cons.1 he with rfl | he
      · exact hc
      · exact ih h e he

theorem give_some {w : Word} {ds es : List Desc} (h : give w ds = some es) : ∃ d1 c x ps d2,
    ds = d1 ++ (c, x, ps) :: d2 ∧ es = d1 ++ (c, x, ps ++ [w]) :: d2 ∧ w.letter ∈ c.params ∧
      ∀ d ∈ d1, w.letter ∉ d.1.params := by
  induction ds generalizing es with
  | nil => cases h
  | cons d ds ih =>
    obtain ⟨c, x, ps⟩ := d
    unfold give at h
    by_cases hc : w.letter ∈ c.params
    · rw [if_pos hc] at h
      cases h
      exact ⟨[], c, x, ps, ds, rfl, rfl, hc, by simp⟩
    · rw [if_neg hc, Option.map_eq_some_iff] at h
      obtain ⟨es', h, rfl⟩ := h
      obtain ⟨d1, c', x', ps', d2, rfl, rfl, hl, hn⟩ := ih h
      refine ⟨(c, x, ps) :: d1, c', x', ps', d2, rfl, rfl, hl, ?_⟩
      intro e he
      rcases List.mem_cons.1 he with rfl | he
      · exact hc
      · exact hn e he

theorem grouped_dealt (ws : List Word) : Grouped ws (dealt ws).1.reverse (dealt ws).2 := by
  induction ws using List.reverseRecOn with
  | nil => exact grouped_nil
  | append_singleton ws w ih =>
    have hd : dealt (ws ++ [w]) = deal (dealt ws) w := by unfold dealt; rw [List.foldl_append]; rfl
    rw [hd]
    unfold deal
    cases hg : give w (dealt ws).1 with
    | some ds =>
      simp only
      obtain ⟨d1, c, x, ps, d2, h1, rfl, hl, hn⟩ := give_some hg
      rw [h1] at ih
      simp only [List.reverse_append, List.reverse_cons, List.append_assoc, List.singleton_append] at ih ⊢
      exact grouped_param ih w hl (fun d hd => hn d (by simpa using hd))
    | none =>
      have hn := give_none hg
      simp only
      cases hw : wordClass w with
      | some c =>
        simp only [List.reverse_cons]
        exact grouped_snoc ih c w [] hw (fun d hd => hn d (by simpa using hd)) (by simp)
      | none =>
        simp only
        exact grouped_unused ih [w] (by simpa using hw) (by simpa using hn)

/-- `words2gcodes` deals the words. -/
theorem words2gcodes_dealt (ws : List Word) : words2gcodes ws =
    match makeAll (dealt ws).1.reverse with
    | .error e => .error e
    | .ok gs => .ok (gs, (dealt ws).2) := by
  obtain ⟨r, hr, hds, hun⟩ := grouped_dealt ws
  have hu := grouping_unique ws _ _ (roleOf_grouping ws) hr
  rw [words2gcodes_eq, gcodesOf_congr ws _ _ hu, hds]
  rw [wordsWhere_congr ws _ (fun k => r k == .unused) (fun k hk => by rw [hu k hk]), hun]
  cases makeAll (dealt ws).1.reverse <;> rfl

end Pygcode
