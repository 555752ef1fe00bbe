import Verif.Spec.Grouping
import Mathlib.Data.List.Induction

/-! The linking loop of `words2gcodes` computes the grouping of the specification. -/

namespace Pygcode
open Spec

theorem linkStep_length (infos : List Info) (i : ℕ) : (linkStep infos i).length = infos.length := by
  unfold linkStep; split <;> simp

theorem linkStep_get_le (infos : List Info) (i k : ℕ) (h : k ≤ i) :
    (linkStep infos i)[k]? = infos[k]? := by
  unfold linkStep
  split
  · rfl
  · rw [List.getElem?_mapIdx]
    cases infos[k]? with
    | none => rfl
    | some p => simp [Nat.not_lt.2 h]

/-- State of the list after the first `n` rounds. -/
def linkN (infos : List Info) (n : ℕ) : List Info := (List.range n).foldl linkStep infos

theorem linkN_succ (infos : List Info) (n : ℕ) :
    linkN infos (n + 1) = linkStep (linkN infos n) n := by
  unfold linkN; rw [List.range_succ, List.foldl_append]; rfl

theorem linkN_length (infos : List Info) (n : ℕ) : (linkN infos n).length = infos.length := by
  induction n with
  | zero => rfl
  | succ n ih => rw [linkN_succ, linkStep_length, ih]

theorem linkN_get_stable (infos : List Info) (k n : ℕ) (h : k ≤ n) :
    (linkN infos n)[k]? = (linkN infos k)[k]? := by
  induction n with
  | zero => simp at h; subst h; rfl
  | succ n ih =>
    rcases Nat.lt_or_ge k (n + 1) with hlt | hge
    · rw [linkN_succ, linkStep_get_le _ _ _ (by omega), ih (by omega)]
    · rw [show k = n + 1 by omega]

/-- Final entry at position `k`. -/
def finalAt (ws : List Word) (k : ℕ) : Option Info := (link (infoList ws))[k]?

/-- Role computed by the model. -/
def roleOf (ws : List Word) (k : ℕ) : Role :=
  match finalAt ws k with
  | none => .unused
  | some p =>
    match p.cls with
    | some c => .gcode c
    | none =>
      match p.owner with
      | some i => .param i
      | none => .unused

theorem link_eq (infos : List Info) : link infos = linkN infos infos.length := rfl

theorem infoList_length (ws : List Word) : (infoList ws).length = ws.length := by
  simp [infoList]

theorem link_length (ws : List Word) : (link (infoList ws)).length = ws.length := by
  rw [link_eq, linkN_length, infoList_length]

theorem finalAt_eq (ws : List Word) (k : ℕ) (h : k < ws.length) :
    finalAt ws k = (linkN (infoList ws) k)[k]? := by
  unfold finalAt
  rw [link_eq, infoList_length]
  exact linkN_get_stable _ _ _ (by omega)

theorem finalAt_some (ws : List Word) (k : ℕ) (h : k < ws.length) : ∃ p, finalAt ws k = some p := by
  unfold finalAt
  exact ⟨_, List.getElem?_eq_getElem (by rw [link_length]; exact h)⟩

theorem roleOf_gcode (ws : List Word) (k : ℕ) (c : Cls) :
    roleOf ws k = .gcode c ↔ ∃ p, finalAt ws k = some p ∧ p.cls = some c := by
  unfold roleOf
  cases finalAt ws k with
  | none => simp
  | some p =>
    simp only [Option.some.injEq, exists_eq_left']
    cases hc : p.cls with
    | some d => simp
    | none => cases p.owner <;> simp

/-- Invariant of the linking loop. -/
theorem link_inv (ws : List Word) (n : ℕ) : ∀ k w, ws[k]? = some w → n ≤ k →
    ∃ p, (linkN (infoList ws) n)[k]? = some p ∧ p.word = w ∧
      ((p.cls = wordClass w ∧ p.owner = none ∧ ∀ i < n, ¬ Accepts ws (roleOf ws) i k) ∨
       (∃ i < n, p.cls = none ∧ p.owner = some i ∧ Accepts ws (roleOf ws) i k ∧
          ∀ j, i < j → j < n → ¬ Accepts ws (roleOf ws) j k)) := by
  induction n with
  | zero =>
    intro k w hk _
    refine ⟨⟨w, wordClass w, none⟩, ?_, rfl, .inl ⟨rfl, rfl, by simp⟩⟩
    show (infoList ws)[k]? = _
    unfold infoList
    rw [List.getElem?_map, hk]
    rfl
  | succ n ih =>
    intro k w hk hle
    obtain ⟨p, hp, hw, hcase⟩ := ih k w hk (by omega)
    have hlen : k < ws.length := (List.getElem?_eq_some_iff.1 hk).1
    have hfin : finalAt ws n = (linkN (infoList ws) n)[n]? := finalAt_eq ws n (by omega)
    rw [linkN_succ]
    unfold linkStep
    rw [← hfin]
    have hacc : ∀ q, finalAt ws n = some q → (Accepts ws (roleOf ws) n k ↔
        ∃ c, q.cls = some c ∧ w.letter ∈ c.params) := by
      intro q hq
      constructor
      · rintro ⟨c, w', hr, hw', hl⟩
        rw [hk] at hw'; cases hw'
        obtain ⟨q', hq', hc⟩ := (roleOf_gcode ws n c).1 hr
        rw [hq] at hq'; cases hq'
        exact ⟨c, hc, hl⟩
      · rintro ⟨c, hc, hl⟩
        exact ⟨c, w, (roleOf_gcode ws n c).2 ⟨q, hq, hc⟩, hk, hl⟩
    obtain ⟨q, hq⟩ := finalAt_some ws n (by omega)
    have hkeep : ¬ Accepts ws (roleOf ws) n k →
        ((p.cls = wordClass w ∧ p.owner = none ∧ ∀ i < n + 1, ¬ Accepts ws (roleOf ws) i k) ∨
         (∃ i < n + 1, p.cls = none ∧ p.owner = some i ∧ Accepts ws (roleOf ws) i k ∧
          ∀ j, i < j → j < n + 1 → ¬ Accepts ws (roleOf ws) j k)) := by
      intro hna
      rcases hcase with ⟨h1, h2, h3⟩ | ⟨i, hi, h1, h2, h3, h4⟩
      · refine .inl ⟨h1, h2, fun i hi => ?_⟩
        rcases Nat.lt_succ_iff_lt_or_eq.1 hi with h | rfl
        · exact h3 i h
        · exact hna
      · refine .inr ⟨i, by omega, h1, h2, h3, fun j hj hjn => ?_⟩
        rcases Nat.lt_succ_iff_lt_or_eq.1 hjn with h | rfl
        · exact h4 j hj h
        · exact hna
    rw [hq]
    simp only [Option.bind_some]
    cases hc : q.cls with
    | none =>
      exact ⟨p, hp, hw, hkeep (fun h => by
        obtain ⟨c, hc', -⟩ := (hacc q hq).1 h; rw [hc] at hc'; cases hc')⟩
    | some c =>
      simp only [List.getElem?_mapIdx, hp, Option.map_some]
      by_cases hl : w.letter ∈ c.params
      · refine ⟨{ p with owner := some n, cls := none }, by
          rw [if_pos ⟨by omega, by rw [hw]; exact hl⟩], hw, .inr ⟨n, by omega, rfl, rfl,
          (hacc q hq).2 ⟨c, hc, hl⟩, fun j h1 h2 => by omega⟩⟩
      · refine ⟨p, by rw [if_neg (by rw [hw]; tauto)], hw, hkeep (fun h => ?_)⟩
        obtain ⟨c', hc', hl'⟩ := (hacc q hq).1 h
        rw [hc] at hc'; cases hc'
        exact hl hl'

/-- Shape of the final entry. -/
theorem final_shape (ws : List Word) (k : ℕ) (w : Word) (hk : ws[k]? = some w) :
    ∃ p, finalAt ws k = some p ∧ p.word = w ∧
      ((p.cls = wordClass w ∧ p.owner = none ∧ ∀ i < k, ¬ Accepts ws (roleOf ws) i k) ∨
       (∃ i < k, p.cls = none ∧ p.owner = some i ∧ Accepts ws (roleOf ws) i k ∧
          ∀ j, i < j → j < k → ¬ Accepts ws (roleOf ws) j k)) := by
  have hlen : k < ws.length := (List.getElem?_eq_some_iff.1 hk).1
  rw [finalAt_eq ws k hlen]
  exact link_inv ws k k w hk (le_refl k)

theorem roleOf_grouping (ws : List Word) : IsGrouping ws (roleOf ws) := by
  have shape := final_shape ws
  constructor
  · intro k w c hk
    obtain ⟨p, hp, -, ⟨h1, h2, h3⟩ | ⟨i, hi, h1, h2, h3, h4⟩⟩ := shape k w hk
    · rw [roleOf_gcode]
      constructor
      · rintro ⟨q, hq, hc⟩; rw [hp] at hq; cases hq; exact ⟨h1 ▸ hc, h3⟩
      · rintro ⟨hc, -⟩; exact ⟨p, hp, h1.trans hc⟩
    · rw [roleOf_gcode]
      constructor
      · rintro ⟨q, hq, hc⟩; rw [hp] at hq; cases hq; rw [h1] at hc; cases hc
      · rintro ⟨-, h⟩; exact absurd h3 (h i hi)
  · intro k w i hk
    obtain ⟨p, hp, -, ⟨h1, h2, h3⟩ | ⟨i', hi, h1, h2, h3, h4⟩⟩ := shape k w hk
    · constructor
      · intro hr
        exfalso
        unfold roleOf at hr
        rw [hp] at hr
        simp only [h2] at hr
        split at hr <;> cases hr
      · rintro ⟨hi, ha, -⟩; exact absurd ha (h3 i hi)
    · have hr : roleOf ws k = .param i' := by
        unfold roleOf; rw [hp]; simp only [h1, h2]
      rw [hr]
      constructor
      · intro h; cases h; exact ⟨hi, h3, h4⟩
      · rintro ⟨hik, ha, hlast⟩
        congr 1
        rcases Nat.lt_trichotomy i i' with h | h | h
        · exact absurd h3 (hlast i' h hi)
        · exact h.symm
        · exact absurd ha (h4 i h hik)
  · intro k w hk
    obtain ⟨p, hp, -, ⟨h1, h2, h3⟩ | ⟨i', hi, h1, h2, h3, h4⟩⟩ := shape k w hk
    · have hr : roleOf ws k = (match wordClass w with | some c => .gcode c | none => .unused) := by
        unfold roleOf; rw [hp]; simp only [h1, h2]
      rw [hr]
      cases wordClass w with
      | none => simp only [true_and, true_iff]; exact h3
      | some c => simp
    · have hr : roleOf ws k = .param i' := by
        unfold roleOf; rw [hp]; simp only [h1, h2]
      rw [hr]
      constructor
      · intro h; cases h
      · rintro ⟨-, h⟩; exact absurd h3 (h i' hi)

/-- The rule determines the roles. -/
theorem grouping_unique (ws : List Word) (r r' : ℕ → Role) (h : IsGrouping ws r)
    (h' : IsGrouping ws r') : ∀ k < ws.length, r k = r' k := by
  intro k
  induction k using Nat.strong_induction_on with
  | _ k ih =>
    intro hk
    have hw := List.getElem?_eq_getElem hk
    have hacc : ∀ i < k, (Accepts ws r i k ↔ Accepts ws r' i k) := by
      intro i hi
      unfold Accepts
      rw [ih i hi (by omega)]
    cases hr : r k with
    | gcode c =>
      symm
      have := (h.gcode k _ c hw).1 hr
      exact (h'.gcode k _ c hw).2 ⟨this.1, fun i hi ha => this.2 i hi ((hacc i hi).2 ha)⟩
    | param i =>
      symm
      obtain ⟨h1, h2, h3⟩ := (h.param k _ i hw).1 hr
      exact (h'.param k _ i hw).2 ⟨h1, (hacc i h1).1 h2, fun j hj hjk ha =>
        h3 j hj hjk ((hacc j hjk).2 ha)⟩
    | unused =>
      symm
      have := (h.unused k _ hw).1 hr
      exact (h'.unused k _ hw).2 ⟨this.1, fun i hi ha => this.2 i hi ((hacc i hi).2 ha)⟩

/-! ## Assembling -/

theorem filter_map_range {α β : Type} (l : List α) (p : α → Bool) (f : α → β) :
    (l.filter p).map f =
      ((List.range l.length).filter (fun i => (l[i]?).any p)).filterMap
        (fun i => (l[i]?).map f) := by
  induction l using List.reverseRecOn with
  | nil => rfl
  | append_singleton l x ih =>
    rw [List.filter_append, List.map_append, ih, List.length_append, List.length_singleton,
      List.range_succ, List.filter_append, List.filterMap_append]
    congr 1
    · have h1 : (List.range l.length).filter (fun i => ((l ++ [x])[i]?).any p) =
          (List.range l.length).filter (fun i => (l[i]?).any p) := by
        apply List.filter_congr
        intro i hi
        rw [List.getElem?_append_left (List.mem_range.1 hi)]
      rw [h1]
      apply List.filterMap_congr
      intro i hi
      rw [List.getElem?_append_left (List.mem_range.1 (List.mem_of_mem_filter hi))]
    · by_cases hp : p x = true <;> simp [hp]

theorem wordsWhere_congr (ws : List Word) (P Q : ℕ → Bool) (h : ∀ k < ws.length, P k = Q k) :
    wordsWhere ws P = wordsWhere ws Q := by
  unfold wordsWhere
  rw [List.filter_congr (fun k hk => h k (List.mem_range.1 hk))]

theorem paramMap_eq (ws : List Word) (o : Option ℕ) :
    paramMap (link (infoList ws)) o =
      wordsWhere ws (fun k => roleOf ws k == (match o with | some i => .param i | none => .unused)) := by
  unfold paramMap
  rw [filter_map_range, link_length]
  unfold wordsWhere
  have h1 : (List.range ws.length).filter
      (fun i => ((link (infoList ws))[i]?).any (fun p => p.cls.isNone && p.owner == o)) =
      (List.range ws.length).filter
        (fun k => roleOf ws k == (match o with | some i => .param i | none => .unused)) := by
    apply List.filter_congr
    intro k hk
    obtain ⟨p, hp⟩ := finalAt_some ws k (List.mem_range.1 hk)
    have hp' : (link (infoList ws))[k]? = some p := hp
    rw [hp']
    unfold roleOf
    rw [hp]
    simp only [Option.any_some]
    cases hc : p.cls with
    | some c => cases o <;> simp
    | none =>
      cases ho : p.owner <;> cases o <;> simp
  rw [h1]
  apply List.filterMap_congr
  intro k hk
  have hlen := List.mem_range.1 (List.mem_of_mem_filter hk)
  obtain ⟨p, hp, hw, -⟩ := final_shape ws k _ (List.getElem?_eq_getElem hlen)
  have hp' : (link (infoList ws))[k]? = some p := hp
  rw [hp', List.getElem?_eq_getElem hlen, ← hw]
  rfl

/-- Make the gcodes of a list of descriptions. -/
def makeAll : List (Cls × Word × List Word) → Except Err (List GCode)
  | [] => .ok []
  | (c, w, ps) :: r =>
    match GCode.make c w ps with
    | .error e => .error e
    | .ok g =>
      match makeAll r with
      | .error e => .error e
      | .ok gs => .ok (g :: gs)

/-- Descriptions collected by `build`. -/
def descr (infos : List Info) : ℕ → List Info → List (Cls × Word × List Word)
  | _, [] => []
  | i, p :: r =>
    match p.cls with
    | none => descr infos (i + 1) r
    | some c => (c, p.word, paramMap infos (some i)) :: descr infos (i + 1) r

theorem build_eq (infos : List Info) (i : ℕ) (l : List Info) :
    words2gcodes.build infos i l = makeAll (descr infos i l) := by
  induction l generalizing i with
  | nil => rfl
  | cons p r ih =>
    unfold words2gcodes.build descr
    cases hc : p.cls with
    | none => simp only; exact ih _
    | some c =>
      simp only
      unfold makeAll
      simp only [ih]
      rfl

theorem descr_range (infos l : List Info) (i : ℕ) :
    descr infos i l = (List.range l.length).filterMap (fun k =>
      match l[k]? with
      | none => none
      | some p => p.cls.map (fun c => (c, p.word, paramMap infos (some (i + k))))) := by
  induction l generalizing i with
  | nil => rfl
  | cons p r ih =>
    rw [List.length_cons, List.range_succ_eq_map, List.filterMap_cons, List.filterMap_map]
    have h2 : (fun k => match (p :: r)[k]? with
        | none => none
        | some p => p.cls.map (fun c => (c, p.word, paramMap infos (some (i + k))))) ∘ Nat.succ =
        (fun k => match r[k]? with
        | none => none
        | some p => p.cls.map (fun c => (c, p.word, paramMap infos (some ((i + 1) + k))))) := by
      funext k
      simp only [Function.comp, List.getElem?_cons_succ, Nat.succ_eq_add_one]
      rw [show i + (k + 1) = i + 1 + k by omega]
    rw [h2, ← ih]
    rw [show descr infos i (p :: r) = (match p.cls with
      | none => descr infos (i + 1) r
      | some c => (c, p.word, paramMap infos (some i)) :: descr infos (i + 1) r) from rfl]
    cases hc : p.cls <;> simp [hc]

theorem descr_eq (ws : List Word) :
    descr (link (infoList ws)) 0 (link (infoList ws)) = gcodesOf ws (roleOf ws) := by
  rw [descr_range, link_length]
  unfold gcodesOf
  apply List.filterMap_congr
  intro k hk
  have hlen := List.mem_range.1 hk
  obtain ⟨p, hp, hw, -⟩ := final_shape ws k _ (List.getElem?_eq_getElem hlen)
  have hp' : (link (infoList ws))[k]? = some p := hp
  simp only [hp', List.getElem?_eq_getElem hlen, Nat.zero_add]
  have hrole := roleOf_gcode ws k
  cases hc : p.cls with
  | some c =>
    rw [(hrole c).2 ⟨p, hp, hc⟩]
    simp only [Option.map_some]
    rw [paramMap_eq, hw]
  | none =>
    simp only [Option.map_none]
    cases hr : roleOf ws k with
    | gcode c =>
      obtain ⟨q, hq, hqc⟩ := (hrole c).1 hr
      rw [hp] at hq; cases hq; rw [hc] at hqc; cases hqc
    | param i => rfl
    | unused => rfl

theorem words2gcodes_eq (ws : List Word) :
    words2gcodes ws =
      match makeAll (gcodesOf ws (roleOf ws)) with
      | .error e => .error e
      | .ok gs => .ok (gs, wordsWhere ws (fun k => roleOf ws k == .unused)) := by
  unfold words2gcodes
  simp only [build_eq, descr_eq, paramMap_eq]
  rfl

theorem make_go (g : GCode) (ps : List Word) :
    (∀ p ∈ ps, p.letter ∈ g.cls.params) → ((g.params ++ ps).map Word.letter).Nodup →
    ps.foldlM GCode.addParam g = .ok { g with params := g.params ++ ps } := by
  induction ps generalizing g with
  | nil => intro _ _; simp; rfl
  | cons p ps ih =>
    intro hal hnd
    rw [List.foldlM_cons]
    have h1 : g.addParam p = .ok { g with params := g.params ++ [p] } := by
      unfold GCode.addParam
      have ha : g.cls.params.contains p.letter = true := by
        simpa using hal p (by simp)
      have hb : (g.params.map Word.letter).contains p.letter = false := by
        rw [← Bool.not_eq_true, List.contains_eq_mem, decide_eq_true_eq]
        intro hm
        rw [List.map_append, List.nodup_append] at hnd
        exact hnd.2.2 _ hm p.letter (by simp) rfl
      rw [ha, hb]; rfl
    rw [h1]
    show ps.foldlM GCode.addParam _ = _
    rw [ih]
    · simp
    · intro q hq; exact hal q (by simp [hq])
    · simpa using hnd

theorem make_go_err (g : GCode) (ps : List Word) (hg : (g.params.map Word.letter).Nodup) :
    ¬ ((∀ p ∈ ps, p.letter ∈ g.cls.params) ∧ ((g.params ++ ps).map Word.letter).Nodup) →
    ps.foldlM GCode.addParam g = .error .param := by
  induction ps generalizing g with
  | nil => intro h; exact absurd ⟨by simp, by simpa using hg⟩ h
  | cons p ps ih =>
    intro h
    rw [List.foldlM_cons]
    by_cases hl : p.letter ∈ g.cls.params
    · by_cases hd : p.letter ∈ g.params.map Word.letter
      · have : g.addParam p = .error .param := by
          unfold GCode.addParam
          simp only [List.contains_eq_mem, hl, hd, decide_true]; rfl
        rw [this]; rfl
      · have h1 : g.addParam p = .ok { g with params := g.params ++ [p] } := by
          unfold GCode.addParam
          simp only [List.contains_eq_mem, hl, hd, decide_true, decide_false]; rfl
        rw [h1]
        show ps.foldlM GCode.addParam _ = _
        apply ih
        · show ((g.params ++ [p]).map Word.letter).Nodup
          rw [List.map_append, List.nodup_append]
          refine ⟨hg, by simp, ?_⟩
          intro a ha b hb
          simp at hb; subst hb
          rintro rfl; exact hd ha
        · rintro ⟨h2, h3⟩
          apply h
          refine ⟨?_, by simpa using h3⟩
          intro q hq
          rcases List.mem_cons.1 hq with rfl | hq
          · exact hl
          · exact h2 q hq
    · have : g.addParam p = .error .param := by
        unfold GCode.addParam
        simp only [List.contains_eq_mem, hl, decide_false]; rfl
      rw [this]; rfl

theorem make_ok (c : Cls) (w : Word) (ps : List Word) (h1 : ∀ p ∈ ps, p.letter ∈ c.params)
    (h2 : (ps.map Word.letter).Nodup) : GCode.make c w ps = .ok ⟨c, w, ps, false⟩ := by
  have := make_go ⟨c, w, [], false⟩ ps h1 (by simpa using h2)
  simpa [GCode.make] using this

theorem make_err (c : Cls) (w : Word) (ps : List Word)
    (h : ¬ ((∀ p ∈ ps, p.letter ∈ c.params) ∧ (ps.map Word.letter).Nodup)) :
    GCode.make c w ps = .error .param :=
  make_go_err ⟨c, w, [], false⟩ ps (by simp) (by simpa using h)

theorem make_eq_ok {c : Cls} {w : Word} {ps : List Word} {g : GCode} (h : GCode.make c w ps = .ok g) :
    g = ⟨c, w, ps, false⟩ ∧ (∀ p ∈ ps, p.letter ∈ c.params) ∧ (ps.map Word.letter).Nodup := by
  by_cases hc : (∀ p ∈ ps, p.letter ∈ c.params) ∧ (ps.map Word.letter).Nodup
  · rw [make_ok c w ps hc.1 hc.2] at h; cases h; exact ⟨rfl, hc⟩
  · rw [make_err c w ps hc] at h; cases h

theorem makeAll_ok {ds : List (Cls × Word × List Word)} {gs : List GCode} (h : makeAll ds = .ok gs) :
    gs = ds.map (fun d => ⟨d.1, d.2.1, d.2.2, false⟩) ∧
      ∀ d ∈ ds, (∀ p ∈ d.2.2, p.letter ∈ d.1.params) ∧ (d.2.2.map Word.letter).Nodup := by
  induction ds generalizing gs with
  | nil => cases h; simp
  | cons d ds ih =>
    obtain ⟨c, w, ps⟩ := d
    unfold makeAll at h
    cases hm : GCode.make c w ps with
    | error e => rw [hm] at h; cases h
    | ok g =>
      rw [hm] at h
      simp only at h
      cases hr : makeAll ds with
      | error e => rw [hr] at h; cases h
      | ok gs' =>
        rw [hr] at h
        cases h
        obtain ⟨rfl, hall⟩ := ih hr
        obtain ⟨rfl, h1, h2⟩ := make_eq_ok hm
        refine ⟨rfl, ?_⟩
        intro d hd
        rcases List.mem_cons.1 hd with rfl | hd
        · exact ⟨h1, h2⟩
        · exact hall d hd

theorem makeAll_of_ok (ds : List (Cls × Word × List Word))
    (h : ∀ d ∈ ds, (∀ p ∈ d.2.2, p.letter ∈ d.1.params) ∧ (d.2.2.map Word.letter).Nodup) :
    makeAll ds = .ok (ds.map (fun d => ⟨d.1, d.2.1, d.2.2, false⟩)) := by
  induction ds with
  | nil => rfl
  | cons d ds ih =>
    obtain ⟨c, w, ps⟩ := d
    unfold makeAll
    have := h (c, w, ps) (by simp)
    rw [make_ok c w ps this.1 this.2]
    simp only [ih (fun d hd => h d (by simp [hd]))]
    rfl

theorem makeAll_err {ds : List (Cls × Word × List Word)} {e : Err} (h : makeAll ds = .error e) :
    e = .param ∧ ∃ d ∈ ds, ¬ ((∀ p ∈ d.2.2, p.letter ∈ d.1.params) ∧ (d.2.2.map Word.letter).Nodup) := by
  induction ds with
  | nil => cases h
  | cons d ds ih =>
    obtain ⟨c, w, ps⟩ := d
    unfold makeAll at h
    by_cases hc : (∀ p ∈ ps, p.letter ∈ c.params) ∧ (ps.map Word.letter).Nodup
    · rw [make_ok c w ps hc.1 hc.2] at h
      simp only at h
      cases hr : makeAll ds with
      | error e' =>
        rw [hr] at h; cases h
        obtain ⟨he, d, hd, hn⟩ := ih hr
        exact ⟨he, d, by simp [hd], hn⟩
      | ok gs => rw [hr] at h; cases h
    · rw [make_err c w ps hc] at h
      cases h
      exact ⟨rfl, (c, w, ps), by simp, hc⟩

end Pygcode
