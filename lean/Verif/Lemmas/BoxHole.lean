import Verif.Lemmas.Box
import Verif.Props.Expand

/-!
# Levels and places visited by the expansion of a canned cycle
-/

namespace Pygcode
open Props Machine Spec

/-! ## One hole -/

/-- Levels that the moves of a hole reach: the retract level, the bottom, and, if chips are broken and more than one pass is
needed, the level to which the tool is pulled back after the first pass. -/
def passLevels (chip : Bool) (r b delta : ℚ) : List ℚ :=
  [r, b] ++ if chip = true ∧ b < r + delta then [r + delta + 1 / 2] else []

theorem drill_levels (chip : Bool) (r b delta : ℚ) (hd : delta ≤ 0) (hbr : b ≤ r) (n : ℕ) (cur : ℚ) (hb : b ≤ cur) (hr : cur ≤ r)
    (dl : List GCode) (h : drillLoop chip r b delta n cur cur = (dl, .done)) :
    (∀ g ∈ dl, b ≤ zOf g ∧ (zOf g ≤ r ∨ (chip = true ∧ b < cur + delta ∧ zOf g ≤ cur + delta + 1 / 2))) ∧
      (∃ g ∈ dl, zOf g = b) ∧ (chip = true → b < cur + delta → ∃ g ∈ dl, zOf g = cur + delta + 1 / 2) := by
  induction n generalizing cur dl with
  | zero => cases congrArg Prod.snd h
  | succ n ih =>
    have hap : ∀ g ∈ approach r cur, b ≤ zOf g ∧ zOf g ≤ r := by
      intro g hg
      unfold approach at hg
      split_ifs at hg with hlt
      · rw [List.mem_singleton] at hg
        subst hg
        show b ≤ cur + 1 / 10 ∧ cur + 1 / 10 ≤ r
        exact ⟨by linarith, hlt.le⟩
      · cases hg
    rw [drillLoop_succ] at h
    by_cases hc : deeper b delta cur ≤ b
    · rw [if_pos hc, Prod.mk.injEq] at h
      have hnot : ¬ b < cur + delta := by
        intro hlt
        unfold deeper at hc
        rw [if_neg (not_lt.2 hlt.le)] at hc
        linarith
      rw [← h.1]
      refine ⟨?_, ⟨feedZ b, by simp, rfl⟩, fun _ h => absurd h hnot⟩
      intro g hg
      rcases List.mem_append.1 hg with hg | hg
      · exact ⟨(hap g hg).1, .inl (hap g hg).2⟩
      · rw [List.mem_singleton] at hg
        subst hg
        exact ⟨le_refl b, .inl hbr⟩
    · rw [if_neg hc] at h
      have hgt : b < cur + delta := deeper_gt hc
      cases hq : drillLoop chip r b delta n (cur + delta) (cur + delta) with
      | mk out' s' =>
        rw [hq] at h
        simp only [Gen.pre, Prod.mk.injEq] at h
        obtain ⟨rfl, rfl⟩ := h
        obtain ⟨k1, ⟨x, kx, k2⟩, -⟩ := ih (cur + delta) hgt.le (by linarith) out' hq
        refine ⟨?_, ⟨x, by simp [kx], k2⟩, ?_⟩
        · intro g hg
          simp only [List.mem_append, List.mem_cons, List.not_mem_nil, or_false] at hg
          rcases hg with (hg | rfl | rfl) | hg
          · exact ⟨(hap g hg).1, .inl (hap g hg).2⟩
          · show b ≤ cur + delta ∧ (cur + delta ≤ r ∨ _)
            exact ⟨hgt.le, .inl (by linarith)⟩
          · cases chip
            · show b ≤ r ∧ (r ≤ r ∨ _)
              exact ⟨hbr, .inl (le_refl _)⟩
            · show b ≤ cur + delta + 1 / 2 ∧ (_ ∨ (true = true ∧ b < cur + delta ∧ cur + delta + 1 / 2 ≤ _))
              exact ⟨by linarith, .inr ⟨rfl, hgt, le_refl _⟩⟩
          · obtain ⟨j1, j2 | ⟨j2, j3, j4⟩⟩ := k1 g hg
            · exact ⟨j1, .inl j2⟩
            · exact ⟨j1, .inr ⟨j2, hgt, by linarith⟩⟩
        · rintro rfl -
          exact ⟨backUp true r (cur + delta), by simp, rfl⟩

/-- Z of a place is the level of the start, or between levels of the list. -/
def Between (z0 : ℚ) (l : List ℚ) (z : ℚ) : Prop := z = z0 ∨ (∃ v ∈ l, v ≤ z) ∧ ∃ v ∈ l, z ≤ v

/-- The places of one hole. -/
theorem hole_levels (fuel : ℕ) (g : GCode) (z0 r b x y : ℚ) (out : List GCode)
    (h : hole fuel g (.ok z0) false r b (some x) (some y) = (out, .done)) (ax : Finset Axis) (hax : xyz ⊆ ax)
    (w : Axis → ℚ) (hw : w .Z = z0) :
    ∃ delta, passDepth g r b = some delta ∧
      (∀ s ∈ walk false ax w out, (∀ a, a ≠ .X → a ≠ .Y → a ≠ .Z → s.2 a = w a) ∧ (s.2 .X = w .X ∨ s.2 .X = x) ∧
        (s.2 .Y = w .Y ∨ s.2 .Y = y) ∧ Between z0 (passLevels (g.cls.isSub .drillingCycleChipBreaking) r b delta) (s.2 .Z)) ∧
      (∀ v ∈ passLevels (g.cls.isSub .drillingCycleChipBreaking) r b delta, v = z0 ∨ ∃ s ∈ walk false ax w out, s.2 .Z = v) := by
  have hX : Axis.X ∈ ax := hax (by decide)
  have hY : Axis.Y ∈ ax := hax (by decide)
  have hZ : Axis.Z ∈ ax := hax (by decide)
  obtain ⟨hrb, -, delta, dl, hpd, hdl, rfl⟩ := (hole_done fuel g z0 false r b x y out).1 h
  refine ⟨delta, hpd, ?_⟩
  have hdv : ∀ g ∈ dl, Vertical g := by
    have := drill_vertical (g.cls.isSub .drillingCycleChipBreaking) r b delta fuel r
    rwa [hdl] at this
  have hdelta : delta ≤ 0 := by
    unfold passDepth at hpd
    split_ifs at hpd
    · cases hq : g.num? 'Q' with
      | none => rw [hq] at hpd; cases hpd
      | some q =>
        rw [hq] at hpd
        simp only [Option.map_some, Option.some.injEq] at hpd
        have := abs_nonneg q
        linarith
    · simp only [Option.some.injEq] at hpd; linarith
  generalize g.cls.isSub .drillingCycleChipBreaking = chip at hdl ⊢
  obtain ⟨d1, ⟨gb, d2, d3⟩, d4⟩ := drill_levels chip r b delta hdelta hrb fuel r hrb (le_refl r) dl hdl
  set A : List GCode := if r > z0 then [rapidZ r] else [] with hA
  set B : List GCode := if r < z0 then [rapidZ r] else [] with hB
  have hAv : ∀ g ∈ A, g = rapidZ r := by
    intro g hg
    rw [hA] at hg
    split_ifs at hg
    · exact List.mem_singleton.1 hg
    · cases hg
  have hBv : ∀ g ∈ B, g = rapidZ r := by
    intro g hg
    rw [hB] at hg
    split_ifs at hg
    · exact List.mem_singleton.1 hg
    · cases hg
  have hVv : ∀ g ∈ B ++ dl ++ [rapidZ (finalZ false r z0)], Vertical g := by
    intro g hg
    rcases List.mem_append.1 hg with hg | hg
    · rcases List.mem_append.1 hg with hg | hg
      · exact ⟨r, .inl (hBv g hg)⟩
      · exact hdv g hg
    · rw [List.mem_singleton] at hg; exact ⟨_, .inl hg⟩
  obtain ⟨z₁, hz₁, hz₁r⟩ : ∃ z₁, endOf w (walk false ax w A) = Function.update w .Z z₁ ∧ (z₁ = r ∨ z₁ = z0) := by
    rw [hA]
    by_cases hr : r > z0
    · rw [if_pos hr]
      exact ⟨r, by rw [walk, (next_Z ax hZ w r).1]; rfl, .inl rfl⟩
    · rw [if_neg hr]
      exact ⟨w .Z, by simp [walk, endOf], .inr hw⟩
  set w₁ := Function.update w .Z z₁ with hw₁
  set w₂ := Function.update (Function.update w₁ .X x) .Y y with hw₂
  have hxy : walk false ax w₁ [rapidXY x y] = [(.rapidMove, w₂)] := by
    rw [walk, next_XY ax hX hY w₁ x y]; rfl
  have hlist : A ++ (rapidXY x y :: B) ++ dl ++ [rapidZ (finalZ false r z0)] =
      A ++ ([rapidXY x y] ++ (B ++ dl ++ [rapidZ (finalZ false r z0)])) := by simp
  have hwalk : walk false ax w (A ++ ([rapidXY x y] ++ (B ++ dl ++ [rapidZ (finalZ false r z0)]))) =
      A.map (fun g => (g.cls, Function.update w .Z (zOf g))) ++ ([(.rapidMove, w₂)] ++
        (B ++ dl ++ [rapidZ (finalZ false r z0)]).map (fun g => (g.cls, Function.update w₂ .Z (zOf g)))) := by
    rw [walk_append, walk_append, hz₁, hxy, ← walk_vertical ax hZ _ hVv, ← walk_vertical ax hZ A (fun g hg => ⟨r, .inl (hAv g hg)⟩)]
    rfl
  rw [hlist, hwalk]
  have hr : r ∈ passLevels chip r b delta := by simp [passLevels]
  have hbm : b ∈ passLevels chip r b delta := by simp [passLevels]
  have hbet : ∀ v ∈ passLevels chip r b delta, Between z0 (passLevels chip r b delta) v :=
    fun v hv => .inr ⟨⟨v, hv, le_refl _⟩, ⟨v, hv, le_refl _⟩⟩
  have hlev : ∀ g ∈ B ++ dl ++ [rapidZ (finalZ false r z0)], Between z0 (passLevels chip r b delta) (zOf g) := by
    intro g hg
    rcases List.mem_append.1 hg with hg | hg
    · rcases List.mem_append.1 hg with hg | hg
      · rw [hBv g hg]; exact hbet r hr
      · obtain ⟨j1, j2⟩ := d1 g hg
        refine .inr ⟨⟨b, hbm, j1⟩, ?_⟩
        rcases j2 with j2 | ⟨j2, j3, j4⟩
        · exact ⟨r, hr, j2⟩
        · exact ⟨r + delta + 1 / 2, by simp [passLevels, j2, j3], j4⟩
    · rw [List.mem_singleton] at hg
      subst hg
      exact .inl rfl
  constructor
  · intro s hs
    rcases List.mem_append.1 hs with hs | hs
    · obtain ⟨g, hg, rfl⟩ := List.mem_map.1 hs
      simp only
      refine ⟨fun a _ _ hz => Function.update_of_ne hz _ _, .inl (Function.update_of_ne (by decide) _ _),
        .inl (Function.update_of_ne (by decide) _ _), ?_⟩
      rw [Function.update_self, hAv g hg]
      exact hbet r hr
    · rcases List.mem_append.1 hs with hs | hs
      · rw [List.mem_singleton] at hs
        subst hs
        simp only
        refine ⟨fun a hx hy hz => by simp [hw₂, hw₁, Function.update_of_ne, hx, hy, hz], .inr (by simp [hw₂, Function.update]),
          .inr (by simp [hw₂]), ?_⟩
        have : w₂ .Z = z₁ := by simp [hw₂, hw₁, Function.update]
        rw [this]
        rcases hz₁r with rfl | rfl
        · exact hbet _ hr
        · exact .inl rfl
      · obtain ⟨g, hg, rfl⟩ := List.mem_map.1 hs
        simp only
        refine ⟨fun a hx hy hz => by simp [hw₂, hw₁, Function.update_of_ne, hx, hy, hz],
          .inr (by rw [Function.update_of_ne (by decide)]; simp [hw₂, Function.update]),
          .inr (by rw [Function.update_of_ne (by decide)]; simp [hw₂]), ?_⟩
        rw [Function.update_self]
        exact hlev g hg
  · have hin : ∀ g ∈ B ++ dl ++ [rapidZ (finalZ false r z0)], ∃ s ∈ A.map (fun g => (g.cls, Function.update w .Z (zOf g))) ++
        ([(Cls.rapidMove, w₂)] ++ (B ++ dl ++ [rapidZ (finalZ false r z0)]).map (fun g => (g.cls, Function.update w₂ .Z (zOf g)))),
        s.2 .Z = zOf g := by
      intro g hg
      exact ⟨_, List.mem_append_right _ (List.mem_append_right _ (List.mem_map.2 ⟨g, hg, rfl⟩)), by
        simp only [Function.update_self]⟩
    intro v hv
    unfold passLevels at hv
    simp only [List.cons_append, List.nil_append, List.mem_cons] at hv
    rcases hv with rfl | rfl | hv
    · rcases lt_trichotomy v z0 with hlt | heq | hgt
      · right
        obtain ⟨s, h1, h2⟩ := hin (rapidZ v) (by simp [hB, hlt])
        exact ⟨s, h1, h2⟩
      · exact .inl heq
      · right
        exact ⟨_, List.mem_append_left _ (List.mem_map.2 ⟨rapidZ v, by simp [hA, hgt], rfl⟩), by
          simp only [Function.update_self]; rfl⟩
    · right
      obtain ⟨s, h1, h2⟩ := hin gb (by simp [d2])
      exact ⟨s, h1, h2.trans d3⟩
    · split_ifs at hv with hc
      · rw [List.mem_singleton] at hv
        obtain ⟨gc, e1, e2⟩ := d4 hc.1 hc.2
        right
        obtain ⟨s, h1, h2⟩ := hin gc (by simp [e1])
        exact ⟨s, h1, by rw [h2, e2, hv]⟩
      · cases hv

/-- The places of holes one after the other. -/
theorem segs_levels (fuel : ℕ) (g : GCode) (z0 r b delta : ℚ) (hpd : passDepth g r b = some delta) (xs ys : ℕ → ℚ)
    (segs : List (List GCode)) (hs : ∀ i seg, segs[i]? = some seg →
      hole fuel g (.ok z0) false r b (some (xs i)) (some (ys i)) = (seg, .done))
    (ax : Finset Axis) (hax : xyz ⊆ ax) (w : Axis → ℚ) (hw : w .Z = z0) :
    (∀ s ∈ walk false ax w segs.flatten, (∀ a, a ≠ .X → a ≠ .Y → a ≠ .Z → s.2 a = w a) ∧
        (s.2 .X = w .X ∨ ∃ i < segs.length, s.2 .X = xs i) ∧ (s.2 .Y = w .Y ∨ ∃ i < segs.length, s.2 .Y = ys i) ∧
        Between z0 (passLevels (g.cls.isSub .drillingCycleChipBreaking) r b delta) (s.2 .Z)) ∧
      (segs ≠ [] → ∀ v ∈ passLevels (g.cls.isSub .drillingCycleChipBreaking) r b delta,
        v = z0 ∨ ∃ s ∈ walk false ax w segs.flatten, s.2 .Z = v) := by
  induction segs generalizing w xs ys with
  | nil => exact ⟨fun s hs => (by cases hs), fun h => absurd rfl h⟩
  | cons seg segs ih =>
    have h0 := hs 0 seg rfl
    obtain ⟨he, -⟩ := hole_path fuel g z0 false r b (xs 0) (ys 0) seg h0 ax hax w (.inl hw)
    obtain ⟨delta', p1, p2, p3⟩ := hole_levels fuel g z0 r b (xs 0) (ys 0) seg h0 ax hax w hw
    obtain rfl : delta = delta' := Option.some.inj (hpd.symm.trans p1)
    obtain ⟨k1, -⟩ := ih (fun i => xs (i + 1)) (fun i => ys (i + 1))
      (fun i s hi => hs (i + 1) s (by simpa using hi)) (endOf w (walk false ax w seg))
      (by rw [he]; simp [placeAt, finalZ])
    rw [List.flatten_cons, walk_append]
    refine ⟨?_, ?_⟩
    · intro s hsm
      rcases List.mem_append.1 hsm with hsm | hsm
      · obtain ⟨q1, q2, q3, q4⟩ := p2 s hsm
        exact ⟨q1, q2.imp id (fun h => ⟨0, by simp, h⟩), q3.imp id (fun h => ⟨0, by simp, h⟩), q4⟩
      · obtain ⟨q1, q2, q3, q4⟩ := k1 s hsm
        rw [he] at q1 q2 q3
        refine ⟨fun a hx hy hz => by rw [q1 a hx hy hz]; simp [placeAt, Function.update_of_ne, hx, hy, hz], ?_, ?_, q4⟩
        · rcases q2 with q2 | ⟨i, hi, q2⟩
          · exact .inr ⟨0, by simp, by rw [q2]; simp [placeAt, Function.update]⟩
          · exact .inr ⟨i + 1, by simpa using hi, q2⟩
        · rcases q3 with q3 | ⟨i, hi, q3⟩
          · exact .inr ⟨0, by simp, by rw [q3]; simp [placeAt, Function.update]⟩
          · exact .inr ⟨i + 1, by simpa using hi, q3⟩
    · intro _ v hv
      rcases p3 v hv with h | ⟨s, h1, h2⟩
      · exact .inl h
      · exact .inr ⟨s, List.mem_append_left _ h1, h2⟩

/-- Leaving out the moves that stand still leaves out no place but the start. -/
theorem dropStill_places (w : Axis → ℚ) (p : Path) : (∀ s ∈ dropStill w p, s ∈ p) ∧
    ∀ s ∈ p, s.2 = w ∨ ∃ s' ∈ dropStill w p, s'.2 = s.2 := by
  induction p generalizing w with
  | nil => exact ⟨fun s hs => hs, fun s hs => by cases hs⟩
  | cons v p ih =>
    unfold dropStill
    split_ifs with hv
    · obtain ⟨h1, h2⟩ := ih w
      refine ⟨fun s hs => List.mem_cons_of_mem _ (h1 s hs), fun s hs => ?_⟩
      rcases List.mem_cons.1 hs with rfl | hs
      · exact .inl hv
      · exact h2 s hs
    · obtain ⟨h1, h2⟩ := ih v.2
      refine ⟨fun s hs => ?_, fun s hs => ?_⟩
      · rcases List.mem_cons.1 hs with rfl | hs
        · simp
        · exact List.mem_cons_of_mem _ (h1 s hs)
      · rcases List.mem_cons.1 hs with rfl | hs
        · exact .inr ⟨_, by simp, rfl⟩
        · rcases h2 s hs with h | ⟨s', h, h'⟩
          · exact .inr ⟨v, by simp, h.symm⟩
          · exact .inr ⟨s', by simp [h], h'⟩

/-- What moves visit, from the work positions they go through. -/
theorem visited_track (gs : List GCode) (hgs : ∀ g ∈ gs, GOK g ∧ IsMove g) : ∀ {m : Machine} {ax : Finset Axis} {inc : Bool}
    {w : Axis → ℚ}, Ready m ax inc w → ∀ a, (visitedAll m gs).map (fun p => p.val a) =
      (track m gs).map (fun s => s.2 a + (m.sysOff a + m.state.offset.val a)) := by
  induction gs with
  | nil => exact fun _ _ => rfl
  | cons g gs ih =>
    intro m ax inc w h a
    obtain ⟨hg, hmv⟩ := hgs g List.mem_cons_self
    obtain ⟨m', h1, h2, -⟩ := ready_goto h g hg (isMove_proc hmv).1
    have hst := process_stays m h.wf h.synced g hg (isMove_params hmv).2.1
    rw [h1] at hst
    have hso : m'.sysOff a = m.sysOff a := by unfold Machine.sysOff; rw [show m'.state = m.state from hst.state]
    have hk := ih (fun x hx => hgs x (List.mem_cons_of_mem _ hx)) h2 a
    rw [hso, show m'.state = m.state from hst.state] at hk
    have hv : visited m g = [m'.absPos] := by
      have hp := process_eq m g hg
      rw [h1] at hp
      unfold visited
      rw [Machine.setMode_eq m [g] (by simpa using hg), execSort_single]
      simp only [List.foldl_cons, List.foldl_nil]
      unfold Machine.effect at hp
      unfold visitedEffect
      rcases (isMove_proc hmv).1 with hq | hq <;> rw [hq] at hp ⊢ <;> simp only at hp ⊢ <;> unfold visitedMoves <;> rw [← hp] <;> rfl
    rw [track, visitedAll, h1]
    simp only [ready_pos h2]
    rw [hv, List.singleton_append, List.map_cons, List.map_cons, hk]
    congr 1
    have := h2.at_ a
    rw [hso, show m'.state = m.state from hst.state] at this
    simp only
    rw [← this]; ring

/-! ## The range after an expansion -/

/-- A range extended by the positions `T` that an expansion visits from `s` to `e`, and by levels `Lv`. -/
theorem step_box {x X s e : ℚ} (hin : x ≤ s ∧ s ≤ X) (E T Lv : List ℚ) (he : e = s ∨ e ∈ T)
    (hT : ∀ y ∈ T, y = s ∨ (min s e ≤ y ∧ y ≤ max s e) ∨ ((∃ v ∈ Lv, v ≤ y) ∧ ∃ v ∈ Lv, y ≤ v))
    (hL : ∀ v ∈ Lv, v = s ∨ v ∈ T) :
    leastOf (leastOf x E) T = leastOf (min x e) (E ++ Lv) ∧ greatestOf (greatestOf X E) T = greatestOf (max X e) (E ++ Lv) := by
  have e1 : min x e = leastOf x [e] := rfl
  have e2 : max X e = greatestOf X [e] := rfl
  rw [e1, e2, leastOf_append, leastOf_append, greatestOf_append, greatestOf_append]
  have hx : ∀ l, leastOf x l ≤ s := fun l => (leastOf_le (.inl rfl)).trans hin.1
  have hX : ∀ l, s ≤ greatestOf X l := fun l => hin.2.trans (le_greatestOf (.inl rfl))
  constructor
  · refine leastOf_eq ?_ ?_
    · intro y hy
      rcases List.mem_append.1 hy with hy | hy
      · exact leastOf_le (.inr (by simp [hy]))
      · rcases hT y hy with rfl | ⟨h, -⟩ | ⟨⟨v, hv, h⟩, -⟩
        · exact hx _
        · refine le_trans (le_min (hx _) (leastOf_le (.inr ?_))) h
          simp
        · exact (leastOf_le (.inr (by simp [hv]))).trans h
    · intro y hy
      simp only [List.cons_append, List.nil_append, List.mem_cons, List.mem_append] at hy
      rcases hy with rfl | hy | hy
      · rcases he with rfl | he
        · exact hx _
        · exact leastOf_le (.inr (by simp [he]))
      · exact leastOf_le (.inr (by simp [hy]))
      · rcases hL y hy with rfl | h
        · exact hx _
        · exact leastOf_le (.inr (by simp [h]))
  · refine greatestOf_eq ?_ ?_
    · intro y hy
      rcases List.mem_append.1 hy with hy | hy
      · exact le_greatestOf (.inr (by simp [hy]))
      · rcases hT y hy with rfl | ⟨-, h⟩ | ⟨-, v, hv, h⟩
        · exact hX _
        · refine le_trans h (max_le (hX _) (le_greatestOf (.inr ?_)))
          simp
        · exact h.trans (le_greatestOf (.inr (by simp [hv])))
    · intro y hy
      simp only [List.cons_append, List.nil_append, List.mem_cons, List.mem_append] at hy
      rcases hy with rfl | hy | hy
      · rcases he with rfl | he
        · exact hX _
        · exact le_greatestOf (.inr (by simp [he]))
      · exact le_greatestOf (.inr (by simp [hy]))
      · rcases hL y hy with rfl | h
        · exact hX _
        · exact le_greatestOf (.inr (by simp [h]))

theorem holeAt_between (g : GCode) (incr : Bool) (p : ℚ) (a : Axis) (i n : ℕ) (hi : i < n) :
    min p (holeAt g incr p a (n - 1)) ≤ holeAt g incr p a i ∧ holeAt g incr p a i ≤ max p (holeAt g incr p a (n - 1)) := by
  unfold holeAt
  cases incr with
  | false => exact ⟨min_le_right _ _, le_max_right _ _⟩
  | true =>
    simp only [if_true]
    have h1 : ((i + 1 : ℕ) : ℚ) ≤ ((n - 1 + 1 : ℕ) : ℚ) := by exact_mod_cast (by omega : i + 1 ≤ n - 1 + 1)
    have h0 : (0 : ℚ) ≤ ((i + 1 : ℕ) : ℚ) := Nat.cast_nonneg _
    generalize ((i + 1 : ℕ) : ℚ) = u at *
    generalize ((n - 1 + 1 : ℕ) : ℚ) = v at *
    rcases le_total 0 (given g a) with hd | hd
    · exact ⟨(min_le_left _ _).trans (by nlinarith), le_trans (by nlinarith) (le_max_right _ _)⟩
    · exact ⟨(min_le_right _ _).trans (by nlinarith), le_trans (by nlinarith) (le_max_left _ _)⟩

end Pygcode
