import Verif.Props.GCodeObj

/-! Grouping of a word list made of gcodes followed by their parameters, then unused words. -/

namespace Pygcode
open Spec Props

theorem wordsWhere_append (W X : List Word) (P : ℕ → Bool) :
    wordsWhere (W ++ X) P = wordsWhere W P ++ wordsWhere X (fun k => P (W.length + k)) := by
  unfold wordsWhere
  rw [List.length_append, List.range_add, List.filter_append, List.filterMap_append]
  congr 1
  · apply List.filterMap_congr
    intro k hk
    rw [List.getElem?_append_left (List.mem_range.1 (List.mem_of_mem_filter hk))]
  · rw [List.filter_map, List.filterMap_map]
    apply List.filterMap_congr
    intro k hk
    simp only [Function.comp]
    rw [List.getElem?_append_right (by omega)]
    congr 1; omega

theorem wordsWhere_all (X : List Word) (P : ℕ → Bool) (h : ∀ k < X.length, P k = true) :
    wordsWhere X P = X := by
  unfold wordsWhere
  rw [List.filter_eq_self.2 (fun k hk => h k (List.mem_range.1 hk)), range_words]

theorem wordsWhere_none (X : List Word) (P : ℕ → Bool) (h : ∀ k < X.length, P k = false) :
    wordsWhere X P = [] := by
  unfold wordsWhere
  rw [List.filter_eq_nil_iff.2 (fun k hk => by simp [h k (List.mem_range.1 hk)])]
  rfl

theorem wordsWhere_cons (x : Word) (X : List Word) (P : ℕ → Bool) :
    wordsWhere (x :: X) P = (if P 0 then [x] else []) ++ wordsWhere X (fun k => P (k + 1)) := by
  have := wordsWhere_append [x] X P
  rw [List.singleton_append] at this
  rw [this]
  congr 1
  · unfold wordsWhere
    by_cases h : P 0 = true <;> simp [h]
  · apply wordsWhere_congr
    intro k _
    simp [Nat.add_comm]

/-- The gcodes of the first words only depend on them, if the rest has no parameters for them. -/
theorem gcodesOf_append (W X : List Word) (r : ℕ → Role)
    (h : ∀ k < X.length, ∀ i < W.length, r (W.length + k) ≠ .param i) :
    gcodesOf (W ++ X) r = gcodesOf W r ++
      (List.range X.length).filterMap (fun k =>
        match r (W.length + k), X[k]? with
        | .gcode c, some w => some (c, w, wordsWhere (W ++ X) (fun j => r j == .param (W.length + k)))
        | _, _ => none) := by
  unfold gcodesOf
  rw [List.length_append, List.range_add, List.filterMap_append]
  congr 1
  · apply List.filterMap_congr
    intro k hk
    have hk' := List.mem_range.1 hk
    rw [List.getElem?_append_left hk', wordsWhere_append,
      wordsWhere_none X _ (fun j hj => by simpa using h j hj k hk'), List.append_nil]
  · rw [List.filterMap_map]
    apply List.filterMap_congr
    intro k hk
    simp only [Function.comp]
    rw [List.getElem?_append_right (by omega)]
    simp only [Nat.add_sub_cancel_left]
    rfl

theorem accepts_left (W X : List Word) (r r' : ℕ → Role) (h : ∀ k < W.length, r' k = r k)
    {i k : ℕ} (hi : i < W.length) (hk : k < W.length) :
    Accepts (W ++ X) r' i k ↔ Accepts W r i k := by
  unfold Accepts
  rw [h i hi, List.getElem?_append_left hk]

/-- Extending a grouping: the rule for the new positions is enough. -/
theorem grouping_extend (W X : List Word) (r r' : ℕ → Role) (hW : IsGrouping W r)
    (h : ∀ k < W.length, r' k = r k)
    (hX : ∀ k w, X[k]? = some w →
      (∀ c, r' (W.length + k) = .gcode c ↔ wordClass w = some c ∧
        ∀ i < W.length + k, ¬ Accepts (W ++ X) r' i (W.length + k)) ∧
      (∀ i, r' (W.length + k) = .param i ↔ i < W.length + k ∧ Accepts (W ++ X) r' i (W.length + k) ∧
        ∀ j, i < j → j < W.length + k → ¬ Accepts (W ++ X) r' j (W.length + k)) ∧
      (r' (W.length + k) = .unused ↔ wordClass w = none ∧
        ∀ i < W.length + k, ¬ Accepts (W ++ X) r' i (W.length + k))) :
    IsGrouping (W ++ X) r' := by
  have split : ∀ k w, (W ++ X)[k]? = some w →
      (k < W.length ∧ W[k]? = some w) ∨ ∃ m, k = W.length + m ∧ X[m]? = some w := by
    intro k w hk
    rcases Nat.lt_or_ge k W.length with hlt | hge
    · rw [List.getElem?_append_left hlt] at hk; exact .inl ⟨hlt, hk⟩
    · rw [List.getElem?_append_right hge] at hk; exact .inr ⟨k - W.length, by omega, hk⟩
  constructor
  · intro k w c hk
    rcases split k w hk with ⟨hlt, hw⟩ | ⟨m, rfl, hw⟩
    · rw [h k hlt, hW.gcode k w c hw]
      constructor
      · rintro ⟨h1, h2⟩
        exact ⟨h1, fun i hi ha => h2 i hi ((accepts_left W X r r' h (by omega) hlt).1 ha)⟩
      · rintro ⟨h1, h2⟩
        exact ⟨h1, fun i hi ha => h2 i hi ((accepts_left W X r r' h (by omega) hlt).2 ha)⟩
    · exact (hX m w hw).1 c
  · intro k w i hk
    rcases split k w hk with ⟨hlt, hw⟩ | ⟨m, rfl, hw⟩
    · rw [h k hlt, hW.param k w i hw]
      constructor
      · rintro ⟨h1, h2, h3⟩
        exact ⟨h1, (accepts_left W X r r' h (by omega) hlt).2 h2,
          fun j hj hjk ha => h3 j hj hjk ((accepts_left W X r r' h (by omega) hlt).1 ha)⟩
      · rintro ⟨h1, h2, h3⟩
        exact ⟨h1, (accepts_left W X r r' h (by omega) hlt).1 h2,
          fun j hj hjk ha => h3 j hj hjk ((accepts_left W X r r' h (by omega) hlt).2 ha)⟩
    · exact (hX m w hw).2.1 i
  · intro k w hk
    rcases split k w hk with ⟨hlt, hw⟩ | ⟨m, rfl, hw⟩
    · rw [h k hlt, hW.unused k w hw]
      constructor
      · rintro ⟨h1, h2⟩
        exact ⟨h1, fun i hi ha => h2 i hi ((accepts_left W X r r' h (by omega) hlt).1 ha)⟩
      · rintro ⟨h1, h2⟩
        exact ⟨h1, fun i hi ha => h2 i hi ((accepts_left W X r r' h (by omega) hlt).2 ha)⟩
    · exact (hX m w hw).2.2

/-- A grouping with given results. -/
def Grouped (ws : List Word) (ds : List (Cls × Word × List Word)) (un : List Word) : Prop :=
  ∃ r, IsGrouping ws r ∧ gcodesOf ws r = ds ∧ wordsWhere ws (fun k => r k == .unused) = un

theorem role_gcode_mem {W : List Word} {r : ℕ → Role} {i : ℕ} {c : Cls} (hi : i < W.length)
    (h : r i = .gcode c) : ∃ w ps, (c, w, ps) ∈ gcodesOf W r := by
  refine ⟨W[i], wordsWhere W (fun j => r j == .param i), ?_⟩
  unfold gcodesOf
  refine List.mem_filterMap.2 ⟨i, List.mem_range.2 hi, ?_⟩
  rw [h, List.getElem?_eq_getElem hi]

/-- Append a gcode and its parameters. -/
theorem grouped_snoc {W : List Word} {ds : List (Cls × Word × List Word)} {un : List Word}
    (h : Grouped W ds un) (c : Cls) (x : Word) (ps : List Word) (hx : wordClass x = some c)
    (hd : ∀ d ∈ ds, x.letter ∉ d.1.params) (hp : ∀ p ∈ ps, p.letter ∈ c.params) :
    Grouped (W ++ x :: ps) (ds ++ [(c, x, ps)]) un := by
  obtain ⟨r, hr, hds, hun⟩ := h
  subst hds hun
  let r' : ℕ → Role := fun k => if k < W.length then r k
    else if k = W.length then .gcode c else .param W.length
  have hold : ∀ k < W.length, r' k = r k := fun k hk => by simp [r', hk]
  have hmid : r' W.length = .gcode c := by simp [r']
  have hnew : ∀ k, r' (W.length + (k + 1)) = .param W.length := by
    intro k
    have h1 : ¬ W.length + (k + 1) < W.length := by omega
    have h2 : ¬ W.length + (k + 1) = W.length := by omega
    simp only [r', h1, h2, if_false]
  have hG : IsGrouping (W ++ x :: ps) r' := by
    apply grouping_extend W (x :: ps) r r' hr hold
    intro k w hk
    cases k with
    | zero =>
      simp at hk; subst hk
      have hno : ∀ i < W.length + 0, ¬ Accepts (W ++ x :: ps) r' i (W.length + 0) := by
        rintro i hi ⟨d, w, hrd, hw, hl⟩
        rw [Nat.add_zero] at hi
        rw [hold i hi] at hrd
        obtain ⟨w', ps', hm⟩ := role_gcode_mem hi hrd
        have : w = x := by
          rw [List.getElem?_append_right (by omega)] at hw
          simpa using hw.symm
        subst this
        exact hd _ hm hl
      rw [Nat.add_zero] at hno ⊢
      rw [hmid]
      refine ⟨fun c' => ?_, fun i => ?_, ?_⟩
      · constructor
        · intro he; cases he; exact ⟨hx, hno⟩
        · rintro ⟨he, -⟩; rw [hx] at he; cases he; rfl
      · constructor
        · intro he; cases he
        · rintro ⟨hi, ha, -⟩; exact absurd ha (hno i hi)
      · rw [hx]; simp
    | succ k =>
      have hwp : w ∈ ps := by
        rw [List.getElem?_cons_succ] at hk; exact List.mem_of_getElem? hk
      have hget : (W ++ x :: ps)[W.length + (k + 1)]? = some w := by
        rw [List.getElem?_append_right (by omega)]
        rw [show W.length + (k + 1) - W.length = k + 1 by omega]
        exact hk
      have hacc : Accepts (W ++ x :: ps) r' W.length (W.length + (k + 1)) :=
        ⟨c, w, hmid, hget, hp w hwp⟩
      have hlast : ∀ j, W.length < j → ¬ Accepts (W ++ x :: ps) r' j (W.length + (k + 1)) := by
        rintro j hj ⟨d, w, hrd, -, -⟩
        obtain ⟨m, rfl⟩ : ∃ m, j = W.length + (m + 1) := ⟨j - W.length - 1, by omega⟩
        rw [hnew] at hrd; cases hrd
      rw [hnew]
      refine ⟨fun c' => ?_, fun i => ?_, ?_⟩
      · constructor
        · intro he; cases he
        · rintro ⟨-, h2⟩; exact absurd hacc (h2 _ (by omega))
      · constructor
        · intro he; cases he; exact ⟨by omega, hacc, fun j hj _ => hlast j hj⟩
        · rintro ⟨hi, ha, hmax⟩
          congr 1
          rcases Nat.lt_trichotomy i W.length with h | h | h
          · exact absurd hacc (hmax _ h (by omega))
          · exact h.symm
          · exact absurd ha (hlast i h)
      · constructor
        · intro he; cases he
        · rintro ⟨-, h2⟩; exact absurd hacc (h2 _ (by omega))
  refine ⟨r', hG, ?_, ?_⟩
  · rw [gcodesOf_append]
    · rw [gcodesOf_congr W r' r hold]
      congr 1
      rw [List.length_cons, List.range_succ_eq_map, List.filterMap_cons]
      simp only [Nat.add_zero, hmid, List.getElem?_cons_zero]
      rw [List.filterMap_map]
      have hnil : (List.range ps.length).filterMap ((fun k =>
          match r' (W.length + k), (x :: ps)[k]? with
          | .gcode c, some w => some (c, w, wordsWhere (W ++ x :: ps) (fun j => r' j == .param (W.length + k)))
          | _, _ => none) ∘ Nat.succ) = [] := by
        rw [List.filterMap_eq_nil_iff]
        intro k _
        simp only [Function.comp, Nat.succ_eq_add_one, hnew]
      rw [hnil]
      congr 3
      rw [wordsWhere_append, wordsWhere_none W, List.nil_append, wordsWhere_cons]
      · simp only [Nat.add_zero, hmid]
        rw [wordsWhere_all ps]
        · rfl
        · intro k _; rw [hnew]; simp
      · intro k hk
        rw [hold k hk]
        rw [← Bool.not_eq_true, beq_iff_eq]
        intro he
        obtain ⟨hlt, -⟩ := (hr.param k _ _ (List.getElem?_eq_getElem hk)).1 he
        omega
    · intro k hk i hi he
      cases k with
      | zero => rw [Nat.add_zero, hmid] at he; cases he
      | succ k => rw [hnew] at he; cases he; omega
  · rw [wordsWhere_append, wordsWhere_none (x :: ps), List.append_nil]
    · apply wordsWhere_congr; intro k hk; rw [hold k hk]
    · intro k _
      cases k with
      | zero => rw [Nat.add_zero, hmid]; rfl
      | succ k => rw [hnew]; rfl

/-- Append unused words. -/
theorem grouped_unused {W : List Word} {ds : List (Cls × Word × List Word)} {un : List Word}
    (h : Grouped W ds un) (mp : List Word) (hm : ∀ w ∈ mp, wordClass w = none)
    (hd : ∀ d ∈ ds, ∀ w ∈ mp, w.letter ∉ d.1.params) : Grouped (W ++ mp) ds (un ++ mp) := by
  obtain ⟨r, hr, hds, hun⟩ := h
  subst hds hun
  let r' : ℕ → Role := fun k => if k < W.length then r k else .unused
  have hold : ∀ k < W.length, r' k = r k := fun k hk => by simp [r', hk]
  have hnew : ∀ k, r' (W.length + k) = .unused := by
    intro k
    have h1 : ¬ W.length + k < W.length := by omega
    simp only [r', h1, if_false]
  have hG : IsGrouping (W ++ mp) r' := by
    apply grouping_extend W mp r r' hr hold
    intro k w hk
    have hwm : w ∈ mp := List.mem_of_getElem? hk
    have hno : ∀ i < W.length + k, ¬ Accepts (W ++ mp) r' i (W.length + k) := by
      rintro i hi ⟨d, w', hrd, hw, hl⟩
      have : w' = w := by
        rw [List.getElem?_append_right (by omega)] at hw
        rw [show W.length + k - W.length = k by omega, hk] at hw
        cases hw; rfl
      subst this
      rcases Nat.lt_or_ge i W.length with hlt | hge
      · rw [hold i hlt] at hrd
        obtain ⟨w', ps', hmem⟩ := role_gcode_mem hlt hrd
        exact hd _ hmem _ hwm hl
      · obtain ⟨m, rfl⟩ : ∃ m, i = W.length + m := ⟨i - W.length, by omega⟩
        rw [hnew] at hrd; cases hrd
    rw [hnew]
    refine ⟨fun c' => ?_, fun i => ?_, ?_⟩
    · rw [hm w hwm]; simp
    · constructor
      · intro he; cases he
      · rintro ⟨hi, ha, -⟩; exact absurd ha (hno i hi)
    · exact ⟨fun _ => ⟨hm w hwm, hno⟩, fun _ => rfl⟩
  refine ⟨r', hG, ?_, ?_⟩
  · rw [gcodesOf_append]
    · rw [gcodesOf_congr W r' r hold]
      rw [List.filterMap_eq_nil_iff.2, List.append_nil]
      intro k _
      rw [hnew]
    · intro k _ i _ he; rw [hnew] at he; cases he
  · rw [wordsWhere_append, wordsWhere_all mp]
    · congr 1
      apply wordsWhere_congr; intro k hk; rw [hold k hk]
    · intro k _; rw [hnew]; rfl

theorem grouped_nil : Grouped [] [] [] :=
  ⟨fun _ => .unused, ⟨by simp, by simp, by simp⟩, rfl, rfl⟩

theorem words2gcodes_of_grouped {ws : List Word} {ds : List (Cls × Word × List Word)}
    {un : List Word} (h : Grouped ws ds un)
    (hok : ∀ d ∈ ds, (∀ p ∈ d.2.2, p.letter ∈ d.1.params) ∧ (d.2.2.map Word.letter).Nodup) :
    words2gcodes ws = .ok (ds.map (fun d => ⟨d.1, d.2.1, d.2.2, false⟩), un) := by
  obtain ⟨r, hr, hds, hun⟩ := h
  have hu := grouping_unique ws _ _ (roleOf_grouping ws) hr
  rw [words2gcodes_eq, gcodesOf_congr ws _ _ hu, hds, makeAll_of_ok ds hok]
  simp only
  rw [wordsWhere_congr ws _ (fun k => r k == .unused) (fun k hk => by rw [hu k hk]), hun]

/-- Gcodes that can stand on one line in this order: no earlier one takes the word of a later one
as a parameter. -/
def Ordered (gs : List GCode) : Prop := gs.Pairwise (fun a b => b.word.letter ∉ a.cls.params)

/-- Grouping of well-ordered gcodes with their parameters, followed by words that none accepts. -/
theorem regroup (gs : List GCode) (mp : List Word) (hc : ∀ g ∈ gs, wordClass g.word = some g.cls)
    (hg : ∀ g ∈ gs, GOK g) (ho : Ordered gs) (hws : ∀ g ∈ gs, g.ws = false)
    (hm : ∀ w ∈ mp, wordClass w = none) (hd : ∀ g ∈ gs, ∀ w ∈ mp, w.letter ∉ g.cls.params) :
    words2gcodes (gs.flatMap (fun g => g.word :: g.params) ++ mp) = .ok (gs, mp) := by
  have key : Grouped (gs.flatMap (fun g => g.word :: g.params))
      (gs.map (fun g => (g.cls, g.word, g.params))) [] := by
    clear hm hd hws
    induction gs using List.reverseRecOn with
    | nil => exact grouped_nil
    | append_singleton gs g ih =>
      rw [List.flatMap_append, List.map_append]
      unfold Ordered at ho
      rw [List.pairwise_append] at ho
      simp only [List.flatMap_cons, List.flatMap_nil, List.append_nil, List.map_cons, List.map_nil]
      apply grouped_snoc (ih (fun x hx => hc x (by simp [hx])) (fun x hx => hg x (by simp [hx])) ho.1)
      · exact hc g (by simp)
      · intro d hd
        obtain ⟨x, hx, rfl⟩ := List.mem_map.1 hd
        exact ho.2.2 x hx g (by simp)
      · exact (hg g (by simp)).2
  have h2 := grouped_unused key mp hm (by
    intro d hdm w hw
    obtain ⟨x, hx, rfl⟩ := List.mem_map.1 hdm
    exact hd x hx w hw)
  have h3 := words2gcodes_of_grouped h2 (by
    intro d hdm
    obtain ⟨x, hx, rfl⟩ := List.mem_map.1 hdm
    exact ⟨(hg x hx).2, (hg x hx).1⟩)
  rw [h3, List.nil_append, List.map_map]
  congr 2
  conv_rhs => rw [← List.map_id gs]
  apply List.map_congr_left
  intro g hgm
  have := hws g hgm
  cases g; simp_all

/-- Gcodes from `words2gcodes` are well-ordered, and none of the unused words names a class. -/
theorem words2gcodes_ordered {ws : List Word} {gs : List GCode} {un : List Word}
    (h : words2gcodes ws = .ok (gs, un)) : Ordered gs ∧ ∀ w ∈ un, wordClass w = none := by
  obtain ⟨h1, h2⟩ := C17_result ws gs un h _ (roleOf_grouping ws)
  constructor
  · have hp : (gcodesOf ws (roleOf ws)).Pairwise (fun a b => b.2.1.letter ∉ a.1.params) := by
      unfold gcodesOf
      rw [List.pairwise_filterMap, List.pairwise_iff_getElem]
      intro i j hi hj hij a ha b hb hl
      simp only [List.getElem_range] at ha hb
      simp only [List.length_range] at hi hj
      rw [List.getElem?_eq_getElem hi] at ha
      rw [List.getElem?_eq_getElem hj] at hb
      cases hra : roleOf ws i with
      | param k => rw [hra] at ha; cases ha
      | unused => rw [hra] at ha; cases ha
      | gcode c =>
        cases hrb : roleOf ws j with
        | param k => rw [hrb] at hb; cases hb
        | unused => rw [hrb] at hb; cases hb
        | gcode d =>
          rw [hra] at ha; rw [hrb] at hb
          cases ha; cases hb
          exact (((roleOf_grouping ws).gcode j _ d (List.getElem?_eq_getElem hj)).1 hrb).2 i hij
            ⟨c, _, hra, List.getElem?_eq_getElem hj, hl⟩
    rw [← h1, List.pairwise_map] at hp
    exact hp
  · intro w hw
    rw [h2] at hw
    obtain ⟨k, hk, hkw⟩ := List.mem_filterMap.1 hw
    have := (List.mem_filter.1 hk).2
    simp only [beq_iff_eq] at this
    exact (((roleOf_grouping ws).unused k w hkw).1 this).1

end Pygcode
