import Verif.Lemmas.Group

/-!
# Properties C16–C18: grouping words into gcodes
-/

namespace Pygcode.Props
open Pygcode Pygcode.Spec

/-- **C17**: every word list has exactly one assignment of roles obeying the rule of
`Spec.IsGrouping`. -/
theorem C17_rule (ws : List Word) : ∃ role, IsGrouping ws role ∧
    ∀ role', IsGrouping ws role' → ∀ k < ws.length, role' k = role k :=
  ⟨roleOf ws, roleOf_grouping ws, fun _ h => grouping_unique ws _ _ h (roleOf_grouping ws)⟩

theorem gcodesOf_congr (ws : List Word) (r r' : ℕ → Role) (h : ∀ k < ws.length, r k = r' k) :
    gcodesOf ws r = gcodesOf ws r' := by
  unfold gcodesOf
  apply List.filterMap_congr
  intro k hk
  rw [h k (List.mem_range.1 hk)]
  rw [wordsWhere_congr ws (fun j => r j == .param k) (fun j => r' j == .param k)
    (fun j hj => by rw [h j hj])]

/-- **C17**: the result of `words2gcodes` is the one given by the rule: the gcodes are the words
with a gcode role, in order, each with the words assigned to it, in order; the unused words are the
rest. -/
theorem C17_result (ws : List Word) (gs : List GCode) (unused : List Word)
    (h : words2gcodes ws = .ok (gs, unused)) (role : ℕ → Role) (hr : IsGrouping ws role) :
    gs.map (fun g => (g.cls, g.word, g.params)) = gcodesOf ws role ∧
      unused = wordsWhere ws (fun k => role k == .unused) := by
  have hu := grouping_unique ws _ _ hr (roleOf_grouping ws)
  rw [gcodesOf_congr ws _ _ hu, wordsWhere_congr ws _ (fun k => roleOf ws k == .unused)
    (fun k hk => by rw [hu k hk])]
  rw [words2gcodes_eq] at h
  cases hm : makeAll (gcodesOf ws (roleOf ws)) with
  | error e => rw [hm] at h; cases h
  | ok gs' =>
    rw [hm] at h
    cases h
    refine ⟨?_, rfl⟩
    rw [(makeAll_ok hm).1, List.map_map]
    exact (List.map_congr_left (fun d _ => rfl)).trans (List.map_id _)

/-- Two words with one letter, both assigned to the same gcode. -/
def Repeated (ws : List Word) (role : ℕ → Role) : Prop :=
  ∃ i j k a b, i < j ∧ role i = .param k ∧ role j = .param k ∧
    ws[i]? = some a ∧ ws[j]? = some b ∧ a.letter = b.letter

theorem wordsWhere_nodup (ws : List Word) (P : ℕ → Bool) :
    ((wordsWhere ws P).map Word.letter).Nodup ↔
      ∀ i j a b, i < j → P i = true → P j = true → ws[i]? = some a → ws[j]? = some b →
        a.letter ≠ b.letter := by
  unfold wordsWhere
  rw [List.map_filterMap]
  constructor
  · intro h i j a b hij hi hj ha hb
    have hp : ((List.range ws.length).filter P).Pairwise (fun x y =>
        ∀ u, (ws[x]?).map Word.letter = some u → ∀ v, (ws[y]?).map Word.letter = some v → u ≠ v) := by
      unfold List.Nodup at h
      rw [List.pairwise_filterMap] at h
      exact h
    have hlen : j < ws.length := (List.getElem?_eq_some_iff.1 hb).1
    have hrange : (List.range ws.length).Pairwise (fun x y => P x = true → P y = true →
        ∀ u, (ws[x]?).map Word.letter = some u → ∀ v, (ws[y]?).map Word.letter = some v → u ≠ v) := by
      rw [List.pairwise_filter] at hp
      exact hp.imp (fun h1 hx hy => h1 hx hy)
    have := (List.pairwise_iff_getElem.1 hrange) i j (by simp; omega) (by simp; omega) hij
    simp only [List.getElem_range] at this
    exact this hi hj _ (by rw [ha]; rfl) _ (by rw [hb]; rfl)
  · intro h
    unfold List.Nodup
    rw [List.pairwise_filterMap, List.pairwise_filter, List.pairwise_iff_getElem]
    intro i j hi hj hij
    simp only [List.getElem_range]
    intro pi pj u hu v hv
    obtain ⟨a, ha, rfl⟩ := Option.map_eq_some_iff.1 hu
    obtain ⟨b, hb, rfl⟩ := Option.map_eq_some_iff.1 hv
    exact h i j a b hij pi pj ha hb

theorem mem_gcodesOf {ws : List Word} {role : ℕ → Role} {d : Cls × Word × List Word}
    (h : d ∈ gcodesOf ws role) :
    ∃ k, role k = .gcode d.1 ∧ ws[k]? = some d.2.1 ∧
      d.2.2 = wordsWhere ws (fun j => role j == .param k) := by
  unfold gcodesOf at h
  obtain ⟨k, -, hk⟩ := List.mem_filterMap.1 h
  cases hr : role k with
  | gcode c =>
    rw [hr] at hk
    cases hw : ws[k]? with
    | none => rw [hw] at hk; cases hk
    | some w => rw [hw] at hk; cases hk; exact ⟨k, hr, hw, rfl⟩
  | param i => rw [hr] at hk; cases hk
  | unused => rw [hr] at hk; cases hk

theorem params_allowed (ws : List Word) (role : ℕ → Role) (hg : IsGrouping ws role)
    {d : Cls × Word × List Word} (h : d ∈ gcodesOf ws role) : ∀ p ∈ d.2.2, p.letter ∈ d.1.params := by
  obtain ⟨k, hr, hw, hp⟩ := mem_gcodesOf h
  intro p hpm
  rw [hp] at hpm
  unfold wordsWhere at hpm
  obtain ⟨j, hj, hjw⟩ := List.mem_filterMap.1 hpm
  have hjr := (List.mem_filter.1 hj).2
  simp only [beq_iff_eq] at hjr
  obtain ⟨-, ⟨c, w, hc, hw', hl⟩, -⟩ := (hg.param j p k hjw).1 hjr
  rw [hjw] at hw'; cases hw'
  rw [hr] at hc; cases hc
  exact hl

/-- **C18**: grouping raises (`GCodeParameterError`, nothing else) iff two words with one letter
are assigned to one gcode. -/
theorem C18_error_iff (ws : List Word) (e : Err) (role : ℕ → Role) (hr : IsGrouping ws role) :
    words2gcodes ws = .error e ↔ e = .param ∧ Repeated ws role := by
  have hu := grouping_unique ws _ _ hr (roleOf_grouping ws)
  have hg : gcodesOf ws (roleOf ws) = gcodesOf ws role := (gcodesOf_congr ws _ _ hu).symm
  rw [words2gcodes_eq, hg]
  constructor
  · intro h
    cases hm : makeAll (gcodesOf ws role) with
    | ok gs => rw [hm] at h; cases h
    | error e' =>
      rw [hm] at h
      cases h
      obtain ⟨he, d, hd, hn⟩ := makeAll_err hm
      refine ⟨he, ?_⟩
      have hnd : ¬ (d.2.2.map Word.letter).Nodup := fun h => hn ⟨params_allowed ws role hr hd, h⟩
      obtain ⟨k, -, -, hp⟩ := mem_gcodesOf hd
      rw [hp, wordsWhere_nodup] at hnd
      push Not at hnd
      obtain ⟨i, j, a, b, hij, hi, hj, ha, hb, hab⟩ := hnd
      simp only [beq_iff_eq] at hi hj
      exact ⟨i, j, k, a, b, hij, hi, hj, ha, hb, hab⟩
  · rintro ⟨rfl, i, j, k, a, b, hij, hi, hj, ha, hb, hab⟩
    cases hm : makeAll (gcodesOf ws role) with
    | error e' => rw [(makeAll_err hm).1]
    | ok gs =>
      exfalso
      obtain ⟨hik, ⟨c, w, hc, -, -⟩, -⟩ := (hr.param i a k ha).1 hi
      have hlen : i < ws.length := (List.getElem?_eq_some_iff.1 ha).1
      have hkw := List.getElem?_eq_getElem (l := ws) (i := k) (by omega)
      have hin : (c, ws[k], wordsWhere ws (fun j => role j == .param k)) ∈ gcodesOf ws role := by
        unfold gcodesOf
        refine List.mem_filterMap.2 ⟨k, List.mem_range.2 (by omega), ?_⟩
        rw [hc, hkw]
      have := ((makeAll_ok hm).2 _ hin).2
      rw [wordsWhere_nodup] at this
      exact this i j a b hij (by simpa using hi) (by simpa using hj) ha hb hab

/-- **C18**: after a successful grouping each gcode's parameters have distinct letters, all
allowed for its class; the class is the one its word names. -/
theorem C18_params (ws : List Word) (gs : List GCode) (unused : List Word)
    (h : words2gcodes ws = .ok (gs, unused)) : ∀ g ∈ gs,
      (g.params.map Word.letter).Nodup ∧ (∀ p ∈ g.params, p.letter ∈ g.cls.params) ∧
      wordClass g.word = some g.cls ∧ g.ws = false := by
  rw [words2gcodes_eq] at h
  cases hm : makeAll (gcodesOf ws (roleOf ws)) with
  | error e => rw [hm] at h; cases h
  | ok gs' =>
    rw [hm] at h
    cases h
    obtain ⟨rfl, hall⟩ := makeAll_ok hm
    intro g hg
    obtain ⟨d, hd, rfl⟩ := List.mem_map.1 hg
    refine ⟨(hall d hd).2, (hall d hd).1, ?_, rfl⟩
    obtain ⟨k, hr, hw, -⟩ := mem_gcodesOf hd
    exact (((roleOf_grouping ws).gcode k _ _ hw).1 hr).1

/-! ## C16 -/

theorem positions_perm (ws : List Word) (role : ℕ → Role) (h : IsGrouping ws role) :
    (((List.range ws.length).filter (fun k => match role k with | .gcode _ => true | _ => false)).flatMap
        (fun k => k :: (List.range ws.length).filter (fun j => role j == .param k)) ++
      (List.range ws.length).filter (fun k => role k == .unused)).Perm (List.range ws.length) := by
  have hR := List.nodup_range (n := ws.length)
  rw [List.perm_ext_iff_of_nodup _ hR]
  · intro j
    simp only [List.mem_append, List.mem_flatMap, List.mem_filter, List.mem_range, List.mem_cons,
      beq_iff_eq]
    constructor
    · rintro (⟨k, ⟨hk, -⟩, rfl | ⟨hj, -⟩⟩ | ⟨hj, -⟩) <;> assumption
    · intro hj
      have hw := List.getElem?_eq_getElem hj
      cases hr : role j with
      | gcode c => exact .inl ⟨j, ⟨hj, by rw [hr]⟩, .inl rfl⟩
      | param i =>
        obtain ⟨hi, ⟨c, w, hc, -, -⟩, -⟩ := (h.param j _ i hw).1 hr
        exact .inl ⟨i, ⟨by omega, by rw [hc]⟩, .inr ⟨hj, rfl⟩⟩
      | unused => exact .inr ⟨hj, rfl⟩
  · rw [List.nodup_append]
    refine ⟨?_, hR.filter _, ?_⟩
    · rw [List.nodup_flatMap]
      constructor
      · intro k hk
        rw [List.nodup_cons]
        refine ⟨?_, hR.filter _⟩
        intro hm
        have h1 := (List.mem_filter.1 hk).2
        have h2 := (List.mem_filter.1 hm).2
        simp only [beq_iff_eq] at h2
        rw [h2] at h1; cases h1
      · apply List.Pairwise.imp_of_mem _ (hR.filter _)
        intro a b ha hb hab
        simp only [Function.onFun, List.disjoint_left, List.mem_cons, List.mem_filter, List.mem_range,
          beq_iff_eq]
        have ha2 := (List.mem_filter.1 ha).2
        have hb2 := (List.mem_filter.1 hb).2
        rintro x (rfl | ⟨-, hx⟩) (rfl | ⟨-, hx'⟩)
        · exact hab rfl
        · rw [hx'] at ha2; cases ha2
        · rw [hx] at hb2; cases hb2
        · rw [hx] at hx'; cases hx'; exact hab rfl
    · intro a ha b hb
      rintro rfl
      have hb2 := (List.mem_filter.1 hb).2
      simp only [beq_iff_eq] at hb2
      obtain ⟨k, hk, hka⟩ := List.mem_flatMap.1 ha
      rcases List.mem_cons.1 hka with rfl | hka
      · have := (List.mem_filter.1 hk).2; rw [hb2] at this; cases this
      · have := (List.mem_filter.1 hka).2; simp only [beq_iff_eq] at this; rw [hb2] at this; cases this

theorem range_words (ws : List Word) : (List.range ws.length).filterMap (fun k => ws[k]?) = ws := by
  have := filter_map_range ws (fun _ => true) id
  simp only [List.filter_true, List.map_id, Option.map_id_fun, id] at this
  have h2 : (List.range ws.length).filter (fun i => (ws[i]?).any (fun _ => true)) =
      List.range ws.length := by
    rw [List.filter_eq_self]
    intro i hi
    rw [List.getElem?_eq_getElem (List.mem_range.1 hi)]; rfl
  rw [h2] at this
  exact this.symm

theorem flat_positions (ws : List Word) (role : ℕ → Role) (F : ℕ → List ℕ) (R : List ℕ)
    (hlt : ∀ k ∈ R, k < ws.length) :
    (R.filterMap (fun k =>
      match role k, ws[k]? with
      | .gcode c, some w => some (c, w, (F k).filterMap (fun k => ws[k]?))
      | _, _ => none)).flatMap (fun d : Cls × Word × List Word => d.2.1 :: d.2.2) =
    ((R.filter (fun k => match role k with | .gcode _ => true | _ => false)).flatMap
      (fun k => k :: F k)).filterMap (fun k => ws[k]?) := by
  induction R with
  | nil => rfl
  | cons k R ih =>
    have hw := List.getElem?_eq_getElem (hlt k (by simp))
    have ih' := ih (fun k hk => hlt k (by simp [hk]))
    rw [List.filterMap_cons, List.filter_cons]
    cases hr : role k with
    | gcode c =>
      simp only [hw]
      rw [List.flatMap_cons, ih']
      simp [hw]
    | param i => simpa using ih'
    | unused => simpa using ih'

/-- **C16**: the gcodes' own words, their parameters and the unused words together are exactly the
given words. -/
theorem C16_conserved (ws : List Word) (gs : List GCode) (unused : List Word)
    (h : words2gcodes ws = .ok (gs, unused)) :
    (gs.flatMap (fun g => g.word :: g.params) ++ unused).Perm ws := by
  obtain ⟨h1, h2⟩ := C17_result ws gs unused h _ (roleOf_grouping ws)
  have hp := positions_perm ws _ (roleOf_grouping ws)
  have := hp.filterMap (fun k => ws[k]?)
  rw [range_words] at this
  refine List.Perm.trans (List.Perm.of_eq ?_) this
  rw [List.filterMap_append]
  congr 1
  have hgs : gs.flatMap (fun g => g.word :: g.params) =
      (gs.map (fun g => (g.cls, g.word, g.params))).flatMap (fun d => d.2.1 :: d.2.2) := by
    rw [List.flatMap_map]
  rw [hgs, h1]
  unfold gcodesOf
  exact flat_positions ws (roleOf ws)
    (fun k => (List.range ws.length).filter (fun j => roleOf ws j == .param k)) _
    (fun k hk => List.mem_range.1 hk)

/-- Words picked by position keep the input order. -/
theorem wordsWhere_sublist (ws : List Word) (P : ℕ → Bool) : (wordsWhere ws P).Sublist ws := by
  have := (List.filter_sublist (p := P) (l := List.range ws.length)).filterMap (fun k => ws[k]?)
  rwa [range_words] at this

/-- **C16**: the gcodes come in the order of their words in the input, unused words and each
gcode's parameters keep the input order. -/
theorem C16_order (ws : List Word) (gs : List GCode) (unused : List Word)
    (h : words2gcodes ws = .ok (gs, unused)) :
    (gs.map GCode.word).Sublist ws ∧ unused.Sublist ws ∧ ∀ g ∈ gs, g.params.Sublist ws := by
  obtain ⟨h1, h2⟩ := C17_result ws gs unused h _ (roleOf_grouping ws)
  refine ⟨?_, h2 ▸ wordsWhere_sublist ws _, ?_⟩
  · have hg : gs.map GCode.word = (gcodesOf ws (roleOf ws)).map (fun d => d.2.1) := by
      rw [← h1, List.map_map]; rfl
    have hs : ∀ R : List ℕ, ((R.filterMap (fun k =>
        match roleOf ws k, ws[k]? with
        | .gcode c, some w => some (c, w, wordsWhere ws (fun j => roleOf ws j == .param k))
        | _, _ => none)).map (fun d => d.2.1)).Sublist (R.filterMap (fun k => ws[k]?)) := by
      intro R
      induction R with
      | nil => simp
      | cons k R ih =>
        rw [List.filterMap_cons, List.filterMap_cons]
        cases hr : roleOf ws k with
        | gcode c =>
          cases hw : ws[k]? with
          | none => simpa using ih
          | some w => simpa using ih
        | param i =>
          cases hw : ws[k]? with
          | none => simpa using ih
          | some w => exact ih.trans (List.sublist_cons_self _ _)
        | unused =>
          cases hw : ws[k]? with
          | none => simpa using ih
          | some w => exact ih.trans (List.sublist_cons_self _ _)
    rw [hg]
    have := hs (List.range ws.length)
    rwa [range_words] at this
  · intro g hg
    have hm : (g.cls, g.word, g.params) ∈ gcodesOf ws (roleOf ws) := by
      rw [← h1]; exact List.mem_map.2 ⟨g, hg, rfl⟩
    obtain ⟨k, -, -, hp⟩ := mem_gcodesOf hm
    simp only at hp
    rw [hp]
    exact wordsWhere_sublist ws _

/-! ## Non-trivial instances -/

/-- `S` and a second `G1`-parameter group: `F`, `S` are gcodes, `D` and the later `S` belong to
`G96`, `X` to `G1`; the first `Y` is unused. -/
def sampleWords : List Word :=
  [⟨'Y', .num 1⟩, ⟨'S', .num 5⟩, ⟨'G', .num 96⟩, ⟨'D', .num 2⟩, ⟨'G', .num 1⟩, ⟨'S', .num 7⟩,
   ⟨'X', .num 3⟩]

example : words2gcodes sampleWords = .ok (
    [⟨.spindleSpeed, ⟨'S', .num 5⟩, [], false⟩,
     ⟨.spindleConstantSurfaceSpeedMode, ⟨'G', .num 96⟩, [⟨'D', .num 2⟩, ⟨'S', .num 7⟩], false⟩,
     ⟨.linearMove, ⟨'G', .num 1⟩, [⟨'X', .num 3⟩], false⟩], [⟨'Y', .num 1⟩]) := by
  decide +kernel

example : words2gcodes [⟨'G', .num 1⟩, ⟨'X', .num 1⟩, ⟨'X', .num 2⟩] = .error .param := by
  decide +kernel

end Pygcode.Props
