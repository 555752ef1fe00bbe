import Verif.Lemmas.Holes

/-!
# Paths of expanded canned cycles: where they end, and that they are safe
-/

namespace Pygcode
open Props Machine

/-! ## Safe paths (specification) -/

/-- Material is below `cut x y` only; removing it down to `z` at one place. -/
def cutBy (cut : ℚ → ℚ → ℚ) (x y z : ℚ) : ℚ → ℚ → ℚ :=
  fun x' y' => if x' = x ∧ y' = y then min (cut x y) z else cut x' y'

/-- A path from `p` is safe above material of height `cut`, `ret` being a level at which moving in the
plane is safe: every rapid move is either vertical and ends above the material, or horizontal
at or above `ret`; every feed move is vertical, and removes the material it passes. -/
def SafePath (ret : ℚ) (cut : ℚ → ℚ → ℚ) (p : Axis → ℚ) : Path → Prop
  | [] => True
  | s :: rest =>
    if s.1 = .rapidMove then
      ((s.2 .X = p .X ∧ s.2 .Y = p .Y ∧ cut (p .X) (p .Y) ≤ s.2 .Z) ∨ (s.2 .Z = p .Z ∧ ret ≤ p .Z)) ∧
        SafePath ret cut s.2 rest
    else (s.2 .X = p .X ∧ s.2 .Y = p .Y) ∧ SafePath ret (cutBy cut (p .X) (p .Y) (s.2 .Z)) s.2 rest

/-- The material left after a path. -/
def cutAfter (cut : ℚ → ℚ → ℚ) (p : Axis → ℚ) : Path → ℚ → ℚ → ℚ
  | [] => cut
  | s :: rest => cutAfter (if s.1 = .rapidMove then cut else cutBy cut (p .X) (p .Y) (s.2 .Z)) s.2 rest

theorem safePath_append (ret : ℚ) (cut : ℚ → ℚ → ℚ) (p : Axis → ℚ) (a b : Path) :
    SafePath ret cut p (a ++ b) ↔ SafePath ret cut p a ∧ SafePath ret (cutAfter cut p a) (endOf p a) b := by
  induction a generalizing cut p with
  | nil => simp [SafePath, cutAfter, endOf]
  | cons s a ih =>
    rw [List.cons_append, SafePath, SafePath, cutAfter, endOf_cons]
    by_cases h : s.1 = .rapidMove
    · simp only [if_pos h, ih, and_assoc]
    · simp only [if_neg h, ih, and_assoc]

theorem cutAfter_append (cut : ℚ → ℚ → ℚ) (p : Axis → ℚ) (a b : Path) :
    cutAfter cut p (a ++ b) = cutAfter (cutAfter cut p a) (endOf p a) b := by
  induction a generalizing cut p with
  | nil => rfl
  | cons s a ih => rw [List.cons_append, cutAfter, cutAfter, endOf_cons, ih]

theorem cutBy_le (cut : ℚ → ℚ → ℚ) (x y z x' y' : ℚ) : cutBy cut x y z x' y' ≤ cut x' y' := by
  unfold cutBy
  split_ifs with h
  · rw [h.1, h.2]; exact min_le_left _ _
  · exact le_refl _

theorem cutAfter_le (cut : ℚ → ℚ → ℚ) (p : Axis → ℚ) (a : Path) (x y : ℚ) : cutAfter cut p a x y ≤ cut x y := by
  induction a generalizing cut p with
  | nil => exact le_refl _
  | cons s a ih =>
    rw [cutAfter]
    refine (ih _ _).trans ?_
    split_ifs
    · exact le_refl _
    · exact cutBy_le _ _ _ _ _ _

/-- Leaving out moves that stand still keeps a path safe. -/
theorem safePath_dropStill (ret : ℚ) (cut : ℚ → ℚ → ℚ) (hcut : ∀ x y, cut x y ≤ ret) (p : Axis → ℚ)
    (hp : cut (p .X) (p .Y) ≤ p .Z) (path : Path) (h : SafePath ret cut p path) :
    SafePath ret cut p (dropStill p path) := by
  induction path generalizing cut p with
  | nil => trivial
  | cons s path ih =>
    rw [SafePath] at h
    by_cases hs : s.1 = .rapidMove
    · rw [if_pos hs] at h
      have hq : cut (s.2 .X) (s.2 .Y) ≤ s.2 .Z := by
        rcases h.1 with ⟨hx, hy, hz⟩ | ⟨hz, hr⟩
        · rw [hx, hy]; exact hz
        · rw [hz]; exact (hcut _ _).trans hr
      have := ih cut hcut s.2 hq h.2
      rw [dropStill]
      split_ifs with he
      · rw [he] at this; exact this
      · rw [SafePath, if_pos hs]; exact ⟨h.1, this⟩
    · rw [if_neg hs] at h
      have hc' : ∀ x y, cutBy cut (p .X) (p .Y) (s.2 .Z) x y ≤ ret := fun x y => (cutBy_le _ _ _ _ _ _).trans (hcut x y)
      have hq : cutBy cut (p .X) (p .Y) (s.2 .Z) (s.2 .X) (s.2 .Y) ≤ s.2 .Z := by
        unfold cutBy
        rw [if_pos h.1]; exact min_le_right _ _
      have := ih _ hc' s.2 hq h.2
      rw [dropStill]
      split_ifs with he
      · have hcc : cutBy cut (p .X) (p .Y) (s.2 .Z) = cut := by
          funext x y
          unfold cutBy
          split_ifs with hxy
          · rw [hxy.1, hxy.2, he]; exact min_eq_left hp
          · rfl
        rw [hcc, he] at this; exact this
      · rw [SafePath, if_neg hs]; exact ⟨h.1, this⟩

/-! ## Vertical moves -/

/-- Vertical moves above material of height `c` are safe. -/
def SafeV (c : ℚ) : List GCode → Prop
  | [] => True
  | g :: gs => if g.cls = .rapidMove then c ≤ zOf g ∧ SafeV c gs else SafeV (min c (zOf g)) gs

/-- Height left after vertical moves. -/
def depthV (c : ℚ) : List GCode → ℚ
  | [] => c
  | g :: gs => depthV (if g.cls = .rapidMove then c else min c (zOf g)) gs

theorem safeV_rapidZ (c z : ℚ) (l : List GCode) : SafeV c (rapidZ z :: l) ↔ c ≤ z ∧ SafeV c l := by
  rw [SafeV]
  have : (rapidZ z).cls = .rapidMove := rfl
  rw [if_pos this]; exact Iff.rfl

theorem safeV_append (c : ℚ) (a b : List GCode) :
    SafeV c (a ++ b) ↔ SafeV c a ∧ SafeV (depthV c a) b := by
  induction a generalizing c with
  | nil => simp [SafeV, depthV]
  | cons g a ih =>
    rw [List.cons_append, SafeV, SafeV, depthV]
    by_cases h : g.cls = .rapidMove
    · simp only [if_pos h, ih, and_assoc]
    · simp only [if_neg h, ih]

theorem depthV_append (c : ℚ) (a b : List GCode) : depthV c (a ++ b) = depthV (depthV c a) b := by
  induction a generalizing c with
  | nil => rfl
  | cons g a ih => rw [List.cons_append, depthV, depthV, ih]

theorem depthV_le (c : ℚ) (a : List GCode) : depthV c a ≤ c := by
  induction a generalizing c with
  | nil => exact le_refl _
  | cons g a ih =>
    rw [depthV]
    refine (ih _).trans ?_
    split_ifs
    · exact le_refl _
    · exact min_le_left _ _

/-- Vertical moves as part of a path. -/
theorem safe_vertical (ret : ℚ) (ax : Finset Axis) (hz : Axis.Z ∈ ax) (gs : List GCode) (h : ∀ g ∈ gs, Vertical g)
    (cut : ℚ → ℚ → ℚ) (w : Axis → ℚ) (hs : SafeV (cut (w .X) (w .Y)) gs) :
    SafePath ret cut w (walk false ax w gs) ∧
      cutAfter cut w (walk false ax w gs) (w .X) (w .Y) = depthV (cut (w .X) (w .Y)) gs := by
  induction gs generalizing cut w with
  | nil => exact ⟨trivial, rfl⟩
  | cons g gs ih =>
    have hg := h g List.mem_cons_self
    have hn : next false ax g w = Function.update w .Z (zOf g) := by
      obtain ⟨z, rfl | rfl⟩ := hg
      · exact (next_Z ax hz w z).1
      · exact (next_Z ax hz w z).2
    have hx : (Function.update w .Z (zOf g)) .X = w .X := Function.update_of_ne (by decide) _ _
    have hy : (Function.update w .Z (zOf g)) .Y = w .Y := Function.update_of_ne (by decide) _ _
    have hzz : (Function.update w .Z (zOf g)) .Z = zOf g := Function.update_self _ _ _
    rw [walk, hn, SafePath, cutAfter, depthV]
    rw [SafeV] at hs
    have ih' := fun c hc => ih (fun x hx => h x (List.mem_cons_of_mem _ hx)) c (Function.update w .Z (zOf g)) hc
    simp only [hx, hy] at ih'
    by_cases hr : g.cls = .rapidMove
    · rw [if_pos hr] at hs
      simp only [if_pos hr, hx, hy, hzz]
      obtain ⟨h1, h2⟩ := ih' cut hs.2
      exact ⟨⟨.inl ⟨trivial, trivial, hs.1⟩, h1⟩, h2⟩
    · rw [if_neg hr] at hs
      simp only [if_neg hr, hx, hy, hzz]
      have hc : cutBy cut (w .X) (w .Y) (zOf g) (w .X) (w .Y) = min (cut (w .X) (w .Y)) (zOf g) := by
        unfold cutBy; rw [if_pos ⟨rfl, rfl⟩]
      obtain ⟨h1, h2⟩ := ih' (cutBy cut (w .X) (w .Y) (zOf g)) (by rw [hc]; exact hs)
      exact ⟨⟨⟨trivial, trivial⟩, h1⟩, by rw [h2, hc]⟩

/-- The drilling loop is safe, and reaches the bottom. -/
theorem drill_safe (chip : Bool) (r b delta : ℚ) (hd : delta ≤ 0) (n : ℕ) (cur : ℚ) (hr : cur ≤ r)
    (c : ℚ) (hc : c ≤ cur) :
    SafeV c (drillLoop chip r b delta n cur cur).1 ∧
      ((drillLoop chip r b delta n cur cur).2 = .done → depthV c (drillLoop chip r b delta n cur cur).1 ≤ b) := by
  induction n generalizing cur c with
  | zero => exact ⟨trivial, fun h => by cases h⟩
  | succ n ih =>
    have hap : ∀ l, (SafeV c (approach r cur ++ l) ↔ SafeV c l) ∧ depthV c (approach r cur ++ l) = depthV c l := by
      intro l
      unfold approach
      split_ifs with h
      · constructor
        · rw [List.singleton_append, safeV_rapidZ]
          constructor
          · exact fun h => h.2
          · exact fun h => ⟨by linarith, h⟩
        · rfl
      · exact ⟨Iff.rfl, rfl⟩
    rw [drillLoop_succ]
    by_cases hdone : deeper b delta cur ≤ b
    · rw [if_pos hdone]
      refine ⟨(hap _).1.2 trivial, fun _ => ?_⟩
      simp only
      rw [(hap _).2]
      show min c b ≤ b
      exact min_le_right _ _
    · rw [if_neg hdone]
      simp only [Gen.pre, List.append_assoc]
      obtain ⟨h1, h2⟩ := ih (cur + delta) (by linarith) (min c (cur + delta)) (min_le_right _ _)
      have hback : ∀ l, (SafeV c ([feedZ (cur + delta), backUp chip r (cur + delta)] ++ l) ↔
          SafeV (min c (cur + delta)) l) ∧
          depthV c ([feedZ (cur + delta), backUp chip r (cur + delta)] ++ l) = depthV (min c (cur + delta)) l := by
        intro l
        have hzb : zOf (backUp chip r (cur + delta)) ≥ cur + delta := by
          cases chip
          · show r ≥ cur + delta; linarith
          · show cur + delta + 1 / 2 ≥ cur + delta; linarith
        have hcb : (backUp chip r (cur + delta)).cls = .rapidMove := by cases chip <;> rfl
        constructor
        · show (if (backUp chip r (cur + delta)).cls = .rapidMove then _ else _) ↔ _
          rw [if_pos hcb]
          exact ⟨fun h => h.2, fun h => ⟨(min_le_right _ _).trans hzb, h⟩⟩
        · show depthV (if (backUp chip r (cur + delta)).cls = .rapidMove then _ else _) l = _
          rw [if_pos hcb]; rfl
      refine ⟨(hap _).1.2 ((hback _).1.2 h1), fun hd => ?_⟩
      rw [(hap _).2, (hback _).2]
      exact h2 hd

/-! ## One hole -/

/-- A place with other X, Y, Z. -/
def placeAt (w : Axis → ℚ) (x y z : ℚ) : Axis → ℚ :=
  Function.update (Function.update (Function.update w .X x) .Y y) .Z z

theorem placeAt_placeAt (w : Axis → ℚ) (x y z x' y' z' : ℚ) : placeAt (placeAt w x y z) x' y' z' = placeAt w x' y' z' := by
  funext a; cases a <;> simp [placeAt, Function.update]

theorem placeAt_self (w : Axis → ℚ) : placeAt w (w .X) (w .Y) (w .Z) = w := by
  funext a; cases a <;> simp [placeAt, Function.update]

theorem endOf_vertical (ax : Finset Axis) (hz : Axis.Z ∈ ax) (gs : List GCode) (h : ∀ g ∈ gs, Vertical g)
    (w : Axis → ℚ) : ∃ z, endOf w (walk false ax w gs) = Function.update w .Z z := by
  rw [walk_vertical ax hz gs h]
  unfold endOf
  cases hg : gs.getLast? with
  | none =>
    rw [List.getLast?_map, hg]
    exact ⟨w .Z, by simp⟩
  | some g =>
    rw [List.getLast?_map, hg]
    exact ⟨zOf g, rfl⟩

/-- Depths of the feed moves of a path. -/
def feedDepths (p : Path) : List ℚ := p.filterMap (fun s => if s.1 = .linearMove then some (s.2 .Z) else none)

theorem feedDepths_append (a b : Path) : feedDepths (a ++ b) = feedDepths a ++ feedDepths b := List.filterMap_append ..

theorem feedDepths_vertical (ax : Finset Axis) (hz : Axis.Z ∈ ax) (gs : List GCode) (h : ∀ g ∈ gs, Vertical g)
    (w : Axis → ℚ) : feedDepths (walk false ax w gs) = feedZs gs := by
  rw [walk_vertical ax hz gs h]
  unfold feedDepths feedZs
  rw [List.filterMap_map]
  apply List.filterMap_congr
  intro g hg
  simp only [Function.comp, Function.update_self]
  obtain ⟨z, rfl | rfl⟩ := h g hg <;> rfl

theorem cutAfter_ge (b : ℚ) (cut : ℚ → ℚ → ℚ) (hcut : ∀ x y, b ≤ cut x y) (p : Axis → ℚ) (path : Path)
    (hk : ∀ s ∈ path, s.1 = .rapidMove ∨ s.1 = .linearMove)
    (h : ∀ z ∈ feedDepths path, b ≤ z) (x y : ℚ) : b ≤ cutAfter cut p path x y := by
  induction path generalizing cut p with
  | nil => exact hcut x y
  | cons s path ih =>
    rw [cutAfter]
    have hk' : ∀ s ∈ path, s.1 = .rapidMove ∨ s.1 = .linearMove := fun t ht => hk t (List.mem_cons_of_mem _ ht)
    by_cases hs : s.1 = .rapidMove
    · rw [if_pos hs]
      refine ih cut hcut _ hk' (fun z hz => h z ?_)
      unfold feedDepths at hz ⊢
      rw [List.filterMap_cons, if_neg (by rw [hs]; decide)]
      exact hz
    · have hl := (hk s List.mem_cons_self).resolve_left hs
      rw [if_neg hs]
      have hd : feedDepths (s :: path) = s.2 .Z :: feedDepths path := by
        unfold feedDepths
        rw [List.filterMap_cons, if_pos hl]
      rw [hd] at h
      refine ih _ (fun x' y' => ?_) _ hk' (fun z hz => h z (List.mem_cons_of_mem _ hz))
      unfold cutBy
      split_ifs
      · exact le_min (hcut _ _) (h _ List.mem_cons_self)
      · exact hcut _ _

/-- Feed moves end at or above the bottom. -/
theorem drill_above (chip : Bool) (r b delta : ℚ) (n : ℕ) (cur : ℚ) (dl : List GCode)
    (h : drillLoop chip r b delta n cur cur = (dl, .done)) : ∀ z ∈ feedZs dl, b ≤ z := by
  induction n generalizing cur dl with
  | zero => cases congrArg Prod.snd h
  | succ n ih =>
    have hpre : feedZs (approach r cur) = [] := by unfold approach; split_ifs <;> rfl
    rw [drillLoop_succ] at h
    by_cases hc : deeper b delta cur ≤ b
    · rw [if_pos hc, Prod.mk.injEq] at h
      rw [← h.1, feedZs_append, hpre]
      intro z hz
      have : z = b := by simpa [feedZs, feedZ, GCode.num?, GCode.param, Word.num] using hz
      rw [this]
    · rw [if_neg hc] at h
      cases hr : drillLoop chip r b delta n (cur + delta) (cur + delta) with
      | mk out' s' =>
        rw [hr] at h
        simp only [Gen.pre, Prod.mk.injEq] at h
        obtain ⟨rfl, rfl⟩ := h
        rw [feedZs_append, feedZs_append, hpre]
        intro z hz
        rw [List.nil_append] at hz
        rcases List.mem_append.1 hz with hz | hz
        · have : z = cur + delta := by
            have hb : feedZs [feedZ (cur + delta), backUp chip r (cur + delta)] = [cur + delta] := by
              cases chip <;> rfl
            rw [hb] at hz
            simpa using hz
          rw [this]; exact (deeper_gt hc).le
        · exact ih _ out' hr z hz

/-- The path of one hole. -/
theorem hole_path (fuel : ℕ) (g : GCode) (z0 : ℚ) (toR : Bool) (r b x y : ℚ) (out : List GCode)
    (h : hole fuel g (.ok z0) toR r b (some x) (some y) = (out, .done)) (ax : Finset Axis) (hax : xyz ⊆ ax)
    (w : Axis → ℚ) (hw : w .Z = z0 ∨ w .Z = finalZ toR r z0) :
    endOf w (walk false ax w out) = placeAt w x y (finalZ toR r z0) ∧
    (∀ s ∈ walk false ax w out, s.1 = .linearMove → s.2 .X = x ∧ s.2 .Y = y) ∧
    (∃ delta dl, passDepth g r b = some delta ∧
      drillLoop (g.cls.isSub .drillingCycleChipBreaking) r b delta fuel r r = (dl, .done) ∧
      feedDepths (walk false ax w out) = feedZs dl) ∧
    (∀ cut : ℚ → ℚ → ℚ, (∀ x y, cut x y ≤ r) → (toR = true ∨ b ≤ z0) → SafePath r cut w (walk false ax w out)) ∧
    (∀ cut : ℚ → ℚ → ℚ, (∀ x y, b ≤ cut x y) → toR = false → z0 < b → ¬ SafePath r cut w (walk false ax w out)) := by
  have hX : Axis.X ∈ ax := hax (by decide)
  have hY : Axis.Y ∈ ax := hax (by decide)
  have hZ : Axis.Z ∈ ax := hax (by decide)
  obtain ⟨hrb, -, delta, dl, hpd, hdl, rfl⟩ := (hole_done fuel g z0 toR r b x y out).1 h
  have hdv : ∀ g ∈ dl, Vertical g := by
    have := drill_vertical (g.cls.isSub .drillingCycleChipBreaking) r b delta fuel r
    rwa [hdl] at this
  have hdelta : delta ≤ 0 := by
    unfold passDepth at hpd
    split_ifs at hpd
    · cases hq : g.num? 'Q' with
      | none => rw [hq] at hpd; cases hpd
      | some q =>
        rw [hq] at hpd
        simp only [Option.map_some, Option.some.injEq] at hpd
        have := abs_nonneg q
        linarith
    · simp only [Option.some.injEq] at hpd; linarith
  -- the four parts
  set A : List GCode := if r > z0 then [rapidZ r] else [] with hA
  set B : List GCode := if r < z0 then [rapidZ r] else [] with hB
  set F : GCode := rapidZ (finalZ toR r z0) with hF
  have hAv : ∀ g ∈ A, Vertical g := by
    intro g hg
    rw [hA] at hg
    split_ifs at hg
    · rw [List.mem_singleton] at hg; exact ⟨_, .inl hg⟩
    · cases hg
  have hBv : ∀ g ∈ B, Vertical g := by
    intro g hg
    rw [hB] at hg
    split_ifs at hg
    · rw [List.mem_singleton] at hg; exact ⟨_, .inl hg⟩
    · cases hg
  have hlist : A ++ (rapidXY x y :: B) ++ dl ++ [F] = A ++ ([rapidXY x y] ++ (B ++ dl ++ [F])) := by simp
  have hVv : ∀ g ∈ B ++ dl ++ [F], Vertical g := by
    intro g hg
    rcases List.mem_append.1 hg with hg | hg
    · rcases List.mem_append.1 hg with hg | hg
      · exact hBv g hg
      · exact hdv g hg
    · rw [List.mem_singleton] at hg; exact ⟨_, .inl hg⟩
  -- after the first part
  obtain ⟨z₁, hz₁, hz₁r⟩ : ∃ z₁, endOf w (walk false ax w A) = Function.update w .Z z₁ ∧ r ≤ z₁ := by
    rw [hA]
    by_cases hr : r > z0
    · rw [if_pos hr]
      refine ⟨r, ?_, le_refl _⟩
      rw [walk, (next_Z ax hZ w r).1]; rfl
    · rw [if_neg hr]
      refine ⟨w .Z, ?_, ?_⟩
      · simp [walk, endOf]
      · rcases hw with hw | hw <;> rw [hw]
        · exact not_lt.1 hr
        · unfold finalZ
          split_ifs
          · exact le_refl _
          · exact not_lt.1 hr
  set w₁ := Function.update w .Z z₁ with hw₁
  set w₂ := Function.update (Function.update w₁ .X x) .Y y with hw₂
  have hxy : walk false ax w₁ [rapidXY x y] = [(.rapidMove, w₂)] := by
    rw [walk, next_XY ax hX hY w₁ x y]; rfl
  have hwalk : walk false ax w (A ++ ([rapidXY x y] ++ (B ++ dl ++ [F]))) =
      walk false ax w A ++ ([(.rapidMove, w₂)] ++ walk false ax w₂ (B ++ dl ++ [F])) := by
    rw [walk_append, walk_append, hz₁, hxy]
    rfl
  have hw₂x : w₂ .X = x := by simp [hw₂, Function.update]
  have hw₂y : w₂ .Y = y := by simp [hw₂, Function.update]
  have hux : ∀ v, (Function.update w₂ .Z v) .X = x := fun v => by rw [Function.update_of_ne (by decide)]; exact hw₂x
  have huy : ∀ v, (Function.update w₂ .Z v) .Y = y := fun v => by rw [Function.update_of_ne (by decide)]; exact hw₂y
  have hw₂z : w₂ .Z = z₁ := by simp [hw₂, hw₁, Function.update]
  have hFwalk : walk false ax w₂ (B ++ dl ++ [F]) = walk false ax w₂ (B ++ dl) ++
      [(.rapidMove, Function.update w₂ .Z (finalZ toR r z0))] := by
    rw [walk_append]
    congr 1
    obtain ⟨z, hz⟩ := endOf_vertical ax hZ (B ++ dl) (fun g hg => hVv g (List.mem_append_left _ hg)) w₂
    rw [hz, walk, hF, (next_Z ax hZ _ _).1, Function.update_idem]
    rfl
  have hfin : Function.update w₂ .Z (finalZ toR r z0) = placeAt w x y (finalZ toR r z0) := by
    funext a; cases a <;> simp [hw₂, hw₁, placeAt, Function.update]
  rw [hlist, hwalk]
  refine ⟨?_, ?_, ?_, ?_, ?_⟩
  · rw [hFwalk, endOf_append, endOf_append, endOf_append, hfin]
    rfl
  · intro s hs hl
    rcases List.mem_append.1 hs with hs | hs
    · rw [walk_vertical ax hZ A hAv] at hs
      obtain ⟨g, hg, rfl⟩ := List.mem_map.1 hs
      rw [hA] at hg
      split_ifs at hg
      · rw [List.mem_singleton] at hg
        subst hg; cases hl
      · cases hg
    · rcases List.mem_append.1 hs with hs | hs
      · rw [List.mem_singleton] at hs; subst hs; cases hl
      · rw [walk_vertical ax hZ _ hVv] at hs
        obtain ⟨g, hg, rfl⟩ := List.mem_map.1 hs
        exact ⟨hux (zOf g), huy (zOf g)⟩
  · refine ⟨delta, dl, hpd, hdl, ?_⟩
    rw [feedDepths_append, feedDepths_append, feedDepths_vertical ax hZ _ hVv, feedDepths_vertical ax hZ _ hAv,
      feedZs_append, feedZs_append]
    have h1 : feedZs A = [] := by rw [hA]; split_ifs <;> rfl
    have h2 : feedZs B = [] := by rw [hB]; split_ifs <;> rfl
    have h3 : feedZs [F] = [] := rfl
    rw [h1, h2, h3]
    simp [feedDepths]
  · intro cut hcut hok
    rw [safePath_append, safePath_append, hz₁]
    refine ⟨?_, ?_, ?_⟩
    · refine (safe_vertical r ax hZ A hAv cut w ?_).1
      rw [hA]
      split_ifs
      · exact (safeV_rapidZ _ _ _).2 ⟨hcut _ _, trivial⟩
      · trivial
    · show (if _ then _ else _)
      rw [if_pos rfl]
      refine ⟨.inr ⟨?_, ?_⟩, trivial⟩
      · show w₂ .Z = w₁ .Z
        rw [hw₂z]; simp [hw₁]
      · show r ≤ w₁ .Z
        simpa [hw₁] using hz₁r
    · set cut' := cutAfter (cutAfter cut w (walk false ax w A)) w₁ [(Cls.rapidMove, w₂)] with hcut'
      have hc' : ∀ x y, cut' x y ≤ r := fun x y => (cutAfter_le _ _ _ _ _).trans ((cutAfter_le _ _ _ _ _).trans (hcut x y))
      have he : endOf w₁ [(Cls.rapidMove, w₂)] = w₂ := rfl
      rw [he]
      refine (safe_vertical r ax hZ _ hVv cut' w₂ ?_).1
      have hcb := hc' (w₂ .X) (w₂ .Y)
      set c := cut' (w₂ .X) (w₂ .Y) with hc
      have hBs : SafeV c B ∧ depthV c B = c := by
        rw [hB]
        split_ifs
        · exact ⟨(safeV_rapidZ _ _ _).2 ⟨hcb, trivial⟩, rfl⟩
        · exact ⟨trivial, rfl⟩
      have hds := drill_safe (g.cls.isSub .drillingCycleChipBreaking) r b delta hdelta fuel r (le_refl _) c hcb
      rw [hdl] at hds
      rw [safeV_append, safeV_append, depthV_append, hBs.2]
      refine ⟨⟨hBs.1, hds.1⟩, ?_⟩
      refine (safeV_rapidZ _ _ _).2 ⟨(hds.2 rfl).trans ?_, trivial⟩
      show b ≤ finalZ toR r z0
      unfold finalZ
      split_ifs with ht
      · exact hrb
      · exact hok.resolve_left ht
  · intro cut hcut ht hzb hsafe
    rw [hFwalk, safePath_append, safePath_append, safePath_append, hz₁] at hsafe
    obtain ⟨-, -, -, hF⟩ := hsafe
    have hcA : cutAfter cut w (walk false ax w A) = cut := by
      rw [hA]; split_ifs <;> rfl
    rw [hcA] at hF
    have he : endOf w₁ [(Cls.rapidMove, w₂)] = w₂ := rfl
    have hc : cutAfter cut w₁ [(Cls.rapidMove, w₂)] = cut := rfl
    rw [he, hc] at hF
    rw [SafePath, if_pos rfl] at hF
    obtain ⟨z, hz⟩ := endOf_vertical ax hZ (B ++ dl) (fun g hg => hVv g (List.mem_append_left _ hg)) w₂
    rw [hz] at hF
    have hzf : finalZ toR r z0 = z0 := by unfold finalZ; rw [ht]; rfl
    simp only [hux, huy, Function.update_self, hzf] at hF
    rcases hF.1 with ⟨-, -, h1⟩ | ⟨h1, h2⟩
    · have hge := cutAfter_ge b cut hcut w₂ (walk false ax w₂ (B ++ dl)) (by
        rw [walk_vertical ax hZ _ (fun g hg => hVv g (List.mem_append_left _ hg))]
        intro s hs
        obtain ⟨g, hg, rfl⟩ := List.mem_map.1 hs
        obtain ⟨z, rfl | rfl⟩ := hVv g (List.mem_append_left _ hg)
        · exact .inl rfl
        · exact .inr rfl) (by
        rw [feedDepths_vertical ax hZ _ (fun g hg => hVv g (List.mem_append_left _ hg)), feedZs_append]
        have h2 : feedZs B = [] := by rw [hB]; split_ifs <;> rfl
        rw [h2, List.nil_append]
        exact drill_above _ r b delta fuel r dl hdl) x y
      linarith
    · linarith

end Pygcode
