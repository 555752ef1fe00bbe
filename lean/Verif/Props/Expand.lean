import Verif.Lemmas.HolePath

/-!
# Expanded canned cycles (C49 – C53)
-/

namespace Pygcode
open Props Machine

/-- Number of holes of an expansion: L, or 1. -/
def reps (g : GCode) : ℕ :=
  match g.num? 'L' with
  | none => 1
  | some q => (truncQ q).toNat

/-- A canned cycle of the table (G73, G76, G81, G82, G83, G85, G89), not its base class. -/
def IsCycle (g : GCode) : Prop := g.cls.isSub .cannedCycle = true ∧ g.cls ≠ .cannedCycle

theorem cycle_table (c : Cls) (h : c.isSub .cannedCycle = true) (hk : c ≠ .cannedCycle) :
    c.proc = .canned ∧ c.params.contains 'L' = true ∧
      (c.isSub .drillingCycleDwell = true ↔ c = .drillingCycleDwell) ∧
      (c.isSub .drillingCyclePeck = true ↔ c = .drillingCyclePeck) ∧
      (c.isSub .drillingCycleChipBreaking = true ↔ c = .drillingCycleChipBreaking) := by
  have := Cls.forall_of_all (p := fun c => !(c.isSub .cannedCycle) || c == .cannedCycle ||
    (c.proc == .canned && c.params.contains 'L' && (c.isSub .drillingCycleDwell == (c == .drillingCycleDwell)) &&
      (c.isSub .drillingCyclePeck == (c == .drillingCyclePeck)) &&
      (c.isSub .drillingCycleChipBreaking == (c == .drillingCycleChipBreaking)))) (by decide +kernel) c
  simp only [h, Bool.not_true, Bool.false_or, beq_eq_false_iff_ne.2 hk, Bool.and_eq_true, beq_iff_eq] at this
  obtain ⟨⟨⟨⟨h1, h2⟩, h3⟩, h4⟩, h5⟩ := this
  refine ⟨h1, h2, ?_, ?_, ?_⟩
  · rw [h3]; exact beq_iff_eq
  · rw [h4]; exact beq_iff_eq
  · rw [h5]; exact beq_iff_eq

theorem inner_eq (fuel : ℕ) (g : GCode) (hg : IsCycle g) (start : Position) (incr toR : Bool) :
    cannedInner fuel g start incr toR = holes fuel g start incr toR (reps g) (start.val .X) (start.val .Y) := by
  have hL := (cycle_table g.cls hg.1 hg.2).2.1
  unfold cannedInner GCode.get reps
  rw [if_pos hL]
  cases g.num? 'L' <;> rfl

/-! ## The moves of the holes -/

/-- The moves of the expansion before conversion to incremental coordinates. -/
theorem inner_segs (fuel : ℕ) (g : GCode) (hg : IsCycle g) (start : Position) (hz : Axis.Z ∈ start.axes)
    (incr toR : Bool) (out : List GCode) (h : cannedInner fuel g start incr toR = (out, .done)) :
    (reps g = 0 ∨ Complete g) ∧ ∃ segs : List (List GCode), out = segs.flatten ∧ segs.length = reps g ∧
      ∀ i seg, segs[i]? = some seg →
        hole fuel g (.ok (start.val .Z)) toR (retractLevel g start incr) (bottomLevel g start incr)
          (some (holeAt g incr (start.val .X) .X i)) (some (holeAt g incr (start.val .Y) .Y i)) = (seg, .done) := by
  rw [inner_eq fuel g hg] at h
  exact (holes_done fuel g start hz incr toR _ _ _ out).1 h

theorem seg_moves (fuel : ℕ) (g : GCode) (z0 : ℚ) (toR : Bool) (r b x y : ℚ) (seg : List GCode)
    (h : hole fuel g (.ok z0) toR r b (some x) (some y) = (seg, .done)) :
    ∀ c ∈ seg, GOK c ∧ Named c ∧ IsMove c := by
  obtain ⟨h1, h2, h3⟩ := moves_ok
  obtain ⟨-, -, delta, dl, -, hdl, rfl⟩ := (hole_done fuel g z0 toR r b x y seg).1 h
  have hdv := drill_vertical (g.cls.isSub .drillingCycleChipBreaking) r b delta fuel r
  rw [hdl] at hdv
  intro c hc
  simp only [List.mem_append, List.mem_cons, List.not_mem_nil, or_false] at hc
  rcases hc with ((hc | hc | hc) | hc) | hc
  · split_ifs at hc
    · rw [List.mem_singleton] at hc; subst hc; exact h1 _
    · cases hc
  · subst hc; exact h3 _ _
  · split_ifs at hc
    · rw [List.mem_singleton] at hc; subst hc; exact h1 _
    · cases hc
  · obtain ⟨z, rfl | rfl⟩ := hdv c hc
    · exact h1 z
    · exact h2 z
  · subst hc; exact h1 _

/-- The path of holes one after the other. -/
theorem segs_path (fuel : ℕ) (g : GCode) (z0 : ℚ) (toR : Bool) (r b : ℚ) (xs ys : ℕ → ℚ)
    (segs : List (List GCode)) (hs : ∀ i seg, segs[i]? = some seg →
      hole fuel g (.ok z0) toR r b (some (xs i)) (some (ys i)) = (seg, .done))
    (ax : Finset Axis) (hax : xyz ⊆ ax) (w : Axis → ℚ) (hw : w .Z = z0 ∨ w .Z = finalZ toR r z0) :
    ∃ paths : List Path, walk false ax w segs.flatten = paths.flatten ∧ paths.length = segs.length ∧
      (∀ (i : ℕ) (p : Path), paths[i]? = some p → ∃ w' : Axis → ℚ, (w' .Z = z0 ∨ w' .Z = finalZ toR r z0) ∧
        (∀ a, a ≠ .X → a ≠ .Y → a ≠ .Z → w' a = w a) ∧
        ∃ seg : List GCode, segs[i]? = some seg ∧ p = walk false ax w' seg) ∧
      endOf w paths.flatten = (if segs = [] then w else
        placeAt w (xs (segs.length - 1)) (ys (segs.length - 1)) (finalZ toR r z0)) ∧
      (∀ cut : ℚ → ℚ → ℚ, (∀ x y, cut x y ≤ r) → (toR = true ∨ b ≤ z0) → SafePath r cut w paths.flatten) := by
  induction segs generalizing w xs ys with
  | nil => exact ⟨[], rfl, rfl, by simp, rfl, fun _ _ _ => trivial⟩
  | cons seg segs ih =>
    have h0 := hs 0 seg rfl
    obtain ⟨he, -, -, hsafe, -⟩ := hole_path fuel g z0 toR r b (xs 0) (ys 0) seg h0 ax hax w hw
    have hw' : (endOf w (walk false ax w seg)) .Z = z0 ∨ (endOf w (walk false ax w seg)) .Z = finalZ toR r z0 := by
      right; rw [he]; simp [placeAt]
    obtain ⟨paths, h1, h2, h3, h4, h5⟩ := ih (fun i => xs (i + 1)) (fun i => ys (i + 1))
      (fun i s hi => hs (i + 1) s (by simpa using hi)) (endOf w (walk false ax w seg)) hw'
    refine ⟨walk false ax w seg :: paths, ?_, by simp [h2], ?_, ?_, ?_⟩
    · rw [List.flatten_cons, List.flatten_cons, walk_append, h1]
    · intro i p hp
      cases i with
      | zero =>
        simp only [List.getElem?_cons_zero, Option.some.injEq] at hp
        subst hp
        exact ⟨w, hw, fun _ _ _ _ => rfl, seg, rfl, rfl⟩
      | succ i =>
        obtain ⟨w', hz, ho, seg', hseg, rfl⟩ := h3 i p (by simpa using hp)
        refine ⟨w', hz, fun a hx hy hz => ?_, seg', by simpa using hseg, rfl⟩
        rw [ho a hx hy hz, he]
        simp [placeAt, Function.update_of_ne, hx, hy, hz]
    · rw [List.flatten_cons, endOf_append, h4, if_neg (List.cons_ne_nil seg segs)]
      by_cases hnil : segs = []
      · subst hnil
        rw [if_pos rfl, he]
        rfl
      · rw [if_neg hnil, he, placeAt_placeAt]
        have : segs.length - 1 + 1 = (seg :: segs).length - 1 := by
          have := List.length_pos_of_ne_nil hnil
          simp only [List.length_cons]; omega
        simp only [this]
    · intro cut hcut hok
      rw [List.flatten_cons, safePath_append]
      exact ⟨hsafe cut hcut hok, h5 _ (fun x y => (cutAfter_le _ _ _ _ _).trans (hcut x y)) hok⟩

/-- A successful expansion, executed by a machine in the mode and at the place it was made for. -/
theorem simplify_path (fuel : ℕ) (g : GCode) (hg : IsCycle g) (start : Position) (hw : start.WF)
    (hax : xyz ⊆ start.axes) (incr toR : Bool) (out : List GCode)
    (h : simplify fuel g start .selectXYPlane incr toR start.axes = (out, .done))
    (m : Machine) (hm : Ready m start.axes incr start.val) :
    ∃ inner, cannedInner fuel g start incr toR = (inner, .done) ∧
      track m out = (if incr then dropStill start.val (walk false start.axes start.val inner)
        else walk false start.axes start.val inner) ∧
      ∃ m', m.processAll out = (m', none) ∧
        Ready m' start.axes incr (endOf start.val (walk false start.axes start.val inner)) := by
  have hz : Axis.Z ∈ start.axes := hax (by decide)
  unfold simplify at h
  rw [if_neg (by rw [hg.1]; simp), if_neg (by decide +kernel)] at h
  have key : ∀ inner, cannedInner fuel g start incr toR = (inner, .done) →
      ∀ c ∈ inner, GOK c ∧ Named c ∧ IsMove c := by
    intro inner hi
    obtain ⟨-, segs, rfl, -, hs⟩ := inner_segs fuel g hg start hz incr toR inner hi
    intro c hc
    obtain ⟨seg, hseg, hc⟩ := List.mem_flatten.1 hc
    obtain ⟨i, hi, rfl⟩ := List.getElem_of_mem hseg
    exact seg_moves _ _ _ _ _ _ _ _ _ (hs i segs[i] (List.getElem?_eq_getElem hi)) c hc
  cases incr with
  | false =>
    simp only [Bool.false_eq_true, if_false] at h ⊢
    have hk := key out h
    obtain ⟨h1, m', h2, h3⟩ := track_walk out (fun c hc => ⟨(hk c hc).1, (hk c hc).2.2⟩) hm
    exact ⟨out, h, h1, m', h2, h3⟩
  | true =>
    simp only [if_true] at h ⊢
    obtain ⟨a, ha1, ha⟩ := abs2rel_machine start.axes start rfl hw
    cases hi : cannedInner fuel g start true toR with
    | mk inner s =>
      rw [hi] at h
      -- the loop ends as the stream does
      have hs : s = .done := by
        unfold abs2rel at h
        rw [ha1] at h
        simp only at h
        have : ∀ (gs : List GCode) (m : Machine) (out : List GCode), abs2relLoop m gs s = (out, .done) → s = .done := by
          intro gs
          induction gs with
          | nil => intro m out h; exact (congrArg Prod.snd h)
          | cons x gs ih =>
            intro m out h
            unfold abs2relLoop at h
            cases ho : abs2relOne m x with
            | mk m' r =>
              rw [ho] at h
              cases r with
              | error e => cases congrArg Prod.snd h
              | ok o =>
                simp only [Gen.pre] at h
                exact ih m' (abs2relLoop m' gs s).1 (Prod.ext rfl (Prod.mk.inj h).2)
        exact this inner a out h
      subst hs
      have hk := key inner hi
      obtain ⟨out', h1, h2, h3⟩ := loop_spec inner hk .done ha ha hm
      have : out' = out := by
        unfold abs2rel at h
        rw [ha1] at h
        simp only at h
        rw [h1] at h
        exact congrArg Prod.fst h
      subst this
      have hwa := (track_walk inner (fun c hc => ⟨(hk c hc).1, (hk c hc).2.2⟩) ha).1
      rw [hwa] at h2
      obtain ⟨h4, m', h5, h6⟩ := track_walk out' (fun c hc => ⟨(h3 c hc).1, (h3 c hc).2.1⟩) hm
      refine ⟨inner, rfl, h2, m', h5, ?_⟩
      rw [← h4, h2, dropStill_end] at h6
      exact h6

/-! ## C49 -/

theorem reps_loops (g : GCode) (h : 1 ≤ reps g) : loops g = reps g := by
  unfold loops reps at *
  cases hq : g.num? 'L' with
  | none => rfl
  | some q =>
    rw [hq] at h
    simp only at h ⊢
    rw [if_neg]
    intro hle
    unfold truncQ at h
    have : (if q < 0 then -⌊-q⌋ else ⌊q⌋) ≤ 0 := by
      split_ifs with h0
      · have : (0 : ℤ) ≤ ⌊-q⌋ := Int.floor_nonneg.2 (by linarith)
        omega
      · have : q = 0 := le_antisymm hle (not_lt.1 h0)
        simp [this]
    have h2 := Int.toNat_of_nonpos this
    omega

/-- Where the expansion ends. -/
theorem expansion_end (fuel : ℕ) (g : GCode) (hg : IsCycle g) (start : Position) (hw : start.WF)
    (hax : xyz ⊆ start.axes) (incr toR : Bool) (out : List GCode)
    (h : simplify fuel g start .selectXYPlane incr toR start.axes = (out, .done))
    (m : Machine) (hm : Ready m start.axes incr start.val) :
    ∃ m', m.processAll out = (m', none) ∧
      Ready m' start.axes incr (if reps g = 0 then start.val else
        placeAt start.val (holeAt g incr (start.val .X) .X (reps g - 1)) (holeAt g incr (start.val .Y) .Y (reps g - 1))
          (finalZ toR (retractLevel g start incr) (start.val .Z))) ∧ (reps g = 0 ∨ Complete g) := by
  have hz : Axis.Z ∈ start.axes := hax (by decide)
  obtain ⟨inner, h1, -, m', h2, h3⟩ := simplify_path fuel g hg start hw hax incr toR out h m hm
  obtain ⟨hc, segs, rfl, hl, hs⟩ := inner_segs fuel g hg start hz incr toR inner h1
  obtain ⟨paths, p1, -, -, p4, -⟩ := segs_path fuel g (start.val .Z) toR _ _ (holeAt g incr (start.val .X) .X)
    (holeAt g incr (start.val .Y) .Y) segs hs start.axes hax start.val (.inl rfl)
  refine ⟨m', h2, ?_, hc⟩
  rw [p1, p4] at h3
  rw [hl] at h3
  have : (segs = []) = (reps g = 0) := by
    rw [← hl]; simp
  simp only [this] at h3
  exact h3

/-- The expansion leaves a machine where the canned cycle itself leaves it: with G98 for any number
of holes, with G99 in absolute mode or for one hole; provided the cycle does not move U, V or W axes
of the machine, which the expansion ignores. -/
theorem C49_same_end (fuel : ℕ) (g : GCode) (hg : IsCycle g) (hok : GOK g) (m : Machine) (hm : m.WF)
    (hb : ¬ m.BadSys) (hs : Synced m) (hax : xyz ⊆ m.axes) (p : Position) (hp : m.pos = .ok p)
    (pl : GCode) (hpl : m.mode.plane = some pl) (hxy : pl.cls = .selectXYPlane)
    (toR : Bool) (htoR : toR = true ↔ ReturnsToR m.mode) (out : List GCode)
    (h : simplify fuel g p pl.cls m.incremental toR m.axes = (out, .done))
    (hL : 1 ≤ reps g) (hcase : toR = false ∨ m.incremental = false ∨ reps g = 1)
    (hothers : ∀ a ∈ m.axes, a = .U ∨ a = .V ∨ a = .W → g.num? a.letter = none) :
    ∃ m₁ m₂ p₁ p₂, m.processAll out = (m₁, none) ∧ m.process g = (m₂, none) ∧
      m₁.pos = .ok p₁ ∧ m₂.pos = .ok p₂ ∧ ∀ a ∈ m.axes, p₁.val a = p₂.val a := by
  have hr := ready_of_pos hm hb hs hp
  have hpax : p.axes = m.axes := by
    rw [ready_pos hr] at hp
    exact (congrArg Position.axes (Except.ok.inj hp)).symm
  have hpwf : p.WF := by
    intro a ha
    exact ready_outside hr a (hpax ▸ ha)
  rw [hxy] at h
  rw [← hpax] at h hr
  obtain ⟨m₁, h1, h2, hc⟩ := expansion_end fuel g hg p hpwf (hpax ▸ hax) m.incremental toR out h m hr
  have hc' : Complete g := hc.resolve_left (by omega)
  rw [if_neg (by omega)] at h2
  obtain ⟨htab, -⟩ := cycle_table g.cls hg.1 hg.2
  have hn : pl.cls.normalAxis.bind Axis.ofLetter = some .Z := by rw [hxy]; exact C45_normals.1
  have hZax : Axis.Z ∈ m.axes := hax (by decide)
  have hR : ReturnsToR m.mode → g.num? 'R' ≠ none := fun _ => hc'.1
  obtain ⟨r, hr'⟩ := Option.ne_none_iff_exists'.1 hc'.1
  obtain ⟨x, hx⟩ := Option.ne_none_iff_exists'.1 hc'.2.2.1
  obtain ⟨y, hy⟩ := Option.ne_none_iff_exists'.1 hc'.2.2.2
  have gx : given g .X = x := by show (g.num? 'X').getD 0 = x; rw [hx]; rfl
  have gy : given g .Y = y := by show (g.num? 'Y').getD 0 = y; rw [hy]; rfl
  have hrest : ∀ a ∈ m.axes, a ≠ .X → a ≠ .Y → a ≠ .Z → g.num? a.letter = none := by
    intro a ha hx hy hz
    have habc : ∀ l, l ∉ g.cls.params → g.num? l = none := by
      intro l hl
      unfold GCode.num? GCode.param
      rw [Option.map_eq_none_iff, List.find?_eq_none]
      intro w hw he
      exact hl (beq_iff_eq.1 he ▸ hok.2 w hw)
    have htab : 'A' ∉ g.cls.params ∧ 'B' ∉ g.cls.params ∧ 'C' ∉ g.cls.params := by
      have := Cls.forall_of_all (p := fun c => !(c.isSub .cannedCycle) ||
        !(c.params.contains 'A' || c.params.contains 'B' || c.params.contains 'C')) (by decide +kernel) g.cls
      simp only [hg.1, Bool.not_true, Bool.false_or, Bool.not_eq_true', Bool.or_eq_false_iff,
        List.contains_eq_mem, decide_eq_false_iff_not] at this
      exact ⟨this.1.1, this.1.2, this.2⟩
    cases a with
    | X => exact absurd rfl hx
    | Y => exact absurd rfl hy
    | Z => exact absurd rfl hz
    | A => exact habc 'A' htab.1
    | B => exact habc 'B' htab.2.1
    | C => exact habc 'C' htab.2.2
    | U => exact hothers .U ha (by simp)
    | V => exact hothers .V ha (by simp)
    | W => exact hothers .W ha (by simp)
  refine ⟨m₁, ?_⟩
  by_cases hi : m.incremental = true
  · obtain ⟨d, hd, hinc⟩ : ∃ d, m.mode.distance = some d ∧ d.cls.isSub .incrementalDistanceMode = true := by
      unfold incremental at hi
      cases hd : m.mode.distance with
      | none => rw [hd] at hi; cases hi
      | some d => rw [hd] at hi; exact ⟨d, rfl, hi⟩
    obtain ⟨m₂, q, p₂, e1, e2, e3, e4, e5, e6⟩ := C45_incremental m hm hb hs d hd hinc g hok htab hg.2 pl hpl .Z hn hZax hR
    rw [hp] at e2
    cases Except.ok.inj e2
    refine ⟨m₂, _, p₂, h1, e1, ready_pos h2, e3, ?_⟩
    intro a ha
    rw [reps_loops g hL] at e4 e6
    have hrl : ((reps g - 1 + 1 : ℕ) : ℚ) = (reps g : ℚ) := by congr 1; omega
    by_cases haz : a = .Z
    · subst haz
      simp only [placeAt, Function.update_self]
      by_cases hret : ReturnsToR m.mode
      · have ht := htoR.2 hret
        have h1 : reps g = 1 := by
          rcases hcase with h | h | h
          · rw [ht] at h; cases h
          · rw [hi] at h; cases h
          · exact h
        rw [e6 hret, h1]
        simp [finalZ, ht, retractLevel, hi]
      · have ht : toR = false := by
          cases toR with
          | false => rfl
          | true => exact absurd (htoR.1 rfl) hret
        rw [e5 hret]
        simp [finalZ, ht]
    · rw [e4 a ha haz]
      by_cases hax' : a = .X
      · subst hax'
        simp [placeAt, Function.update, holeAt, hi]
        left; exact_mod_cast hrl
      · by_cases hay' : a = .Y
        · subst hay'
          simp [placeAt, Function.update, holeAt, hi]
          left; exact_mod_cast hrl
        · have : given g a = 0 := by unfold given; rw [hrest a ha hax' hay' haz]; rfl
          simp [placeAt, Function.update, haz, hax', hay', this]
  · have hi' : m.incremental = false := by simpa using hi
    have hab : ∀ d, m.mode.distance = some d → d.cls.isSub .incrementalDistanceMode = false := by
      intro d hd
      unfold incremental at hi'
      rw [hd] at hi'; exact hi'
    obtain ⟨m₂, q, p₂, e1, e2, e3, e4, e5, e6, e7⟩ := C45_absolute m hm hb hs hab g hok htab hg.2
      (by rw [reps_loops g hL]; exact hL) pl hpl .Z hn hZax hR
    rw [hp] at e2
    cases Except.ok.inj e2
    refine ⟨m₂, _, p₂, h1, e1, ready_pos h2, e3, ?_⟩
    intro a ha
    by_cases haz : a = .Z
    · subst haz
      simp only [placeAt, Function.update_self]
      by_cases hret : ReturnsToR m.mode
      · have ht := htoR.2 hret
        have := e7 hret
        simp [finalZ, ht, retractLevel, hi', this]
      · have ht : toR = false := by
          cases toR with
          | false => rfl
          | true => exact absurd (htoR.1 rfl) hret
        rw [e6 hret]
        simp [finalZ, ht]
    · by_cases hax' : a = .X
      · subst hax'
        rw [e4 .X ha haz x hx]
        simp [placeAt, Function.update, holeAt, hi', gx]
      · by_cases hay' : a = .Y
        · subst hay'
          rw [e4 .Y ha haz y hy]
          simp [placeAt, Function.update, holeAt, hi', gy]
        · rw [e5 a ha haz (hrest a ha hax' hay' haz)]
          simp [placeAt, Function.update, haz, hax', hay']

/-- `G81 X4 Y1 Z-1 R2 L3`. -/
def sampleDrill : GCode :=
  ⟨.drillingCycle, ⟨'G', .num 81⟩,
    [⟨'X', .num 4⟩, ⟨'Y', .num 1⟩, ⟨'Z', .num (-3)⟩, ⟨'R', .num 2⟩, ⟨'L', .num 3⟩], false⟩

/-- In incremental mode with G99 and several holes the two disagree (unless R is 0): the machine adds R
for every hole, the expansion once. -/
theorem C49_g99_incremental (fuel : ℕ) (g : GCode) (hg : IsCycle g) (hok : GOK g) (m : Machine) (hm : m.WF)
    (hb : ¬ m.BadSys) (hs : Synced m) (hax : xyz ⊆ m.axes) (p : Position) (hp : m.pos = .ok p)
    (pl : GCode) (hpl : m.mode.plane = some pl) (hxy : pl.cls = .selectXYPlane)
    (hret : ReturnsToR m.mode) (hi : m.incremental = true) (out : List GCode)
    (h : simplify fuel g p pl.cls true true m.axes = (out, .done)) (hL : 2 ≤ reps g) (hR0 : g.num? 'R' ≠ some 0) :
    ∃ m₁ m₂ p₁ p₂, m.processAll out = (m₁, none) ∧ m.process g = (m₂, none) ∧
      m₁.pos = .ok p₁ ∧ m₂.pos = .ok p₂ ∧ p₁.val .Z ≠ p₂.val .Z := by
  have hr := ready_of_pos hm hb hs hp
  have hpax : p.axes = m.axes := by
    rw [ready_pos hr] at hp
    exact (congrArg Position.axes (Except.ok.inj hp)).symm
  have hpwf : p.WF := by
    intro a ha
    exact ready_outside hr a (hpax ▸ ha)
  rw [hxy] at h
  rw [← hpax] at h hr
  rw [hi] at hr
  obtain ⟨m₁, h1, h2, hc⟩ := expansion_end fuel g hg p hpwf (hpax ▸ hax) true true out h m hr
  have hc' : Complete g := hc.resolve_left (by omega)
  rw [if_neg (by omega)] at h2
  obtain ⟨htab, -⟩ := cycle_table g.cls hg.1 hg.2
  have hn : pl.cls.normalAxis.bind Axis.ofLetter = some .Z := by rw [hxy]; exact C45_normals.1
  obtain ⟨r, hr'⟩ := Option.ne_none_iff_exists'.1 hc'.1
  obtain ⟨d, hd, hinc⟩ : ∃ d, m.mode.distance = some d ∧ d.cls.isSub .incrementalDistanceMode = true := by
    unfold incremental at hi
    cases hd : m.mode.distance with
    | none => rw [hd] at hi; cases hi
    | some d => rw [hd] at hi; exact ⟨d, rfl, hi⟩
  obtain ⟨m₂, q, p₂, e1, e2, e3, e4, e5, e6⟩ := C45_incremental m hm hb hs d hd hinc g hok htab hg.2 pl hpl .Z hn
    (hax (by decide)) (fun _ => hc'.1)
  rw [hp] at e2
  cases Except.ok.inj e2
  refine ⟨m₁, m₂, _, p₂, h1, e1, ready_pos h2, e3, ?_⟩
  rw [reps_loops g (by omega)] at e6
  rw [e6 hret]
  simp only [placeAt, Function.update_self, finalZ, if_true, retractLevel, hr', Option.getD_some]
  intro he
  have hr0 : r ≠ 0 := by rintro rfl; exact hR0 hr'
  have h3 : ((reps g : ℚ) - 1) * r = 0 := by linarith
  rcases mul_eq_zero.1 h3 with h4 | h4
  · have : (reps g : ℚ) = 1 := by linarith
    have : reps g = 1 := by exact_mod_cast this
    omega
  · exact hr0 h4

/-- With L0 the expansion is empty, while the machine makes one hole. -/
theorem C49_L0 (fuel : ℕ) (g : GCode) (hg : IsCycle g) (start : Position) (toR : Bool) (q : ℚ)
    (hq : g.num? 'L' = some q) (h0 : q ≤ 0) :
    simplify fuel g start .selectXYPlane false toR start.axes = ([], .done) ∧ loops g = 1 := by
  have hr : reps g = 0 := by
    by_contra hne
    have := reps_loops g (Nat.pos_of_ne_zero hne)
    unfold loops reps at this
    rw [hq] at this
    simp only [if_pos h0] at this
    have h2 : truncQ q ≤ 0 := by
      unfold truncQ
      split_ifs with h3
      · have : (0 : ℤ) ≤ ⌊-q⌋ := Int.floor_nonneg.2 (by linarith)
        omega
      · have : q = 0 := le_antisymm h0 (not_lt.1 h3)
        simp [this]
    rw [Int.toNat_of_nonpos h2] at this
    cases this
  constructor
  · unfold simplify
    rw [if_neg (by rw [hg.1]; simp), if_neg (by decide +kernel), inner_eq fuel g hg, hr]
    rfl
  · unfold loops
    rw [hq]
    simp only [if_pos h0]

example : (simplify 9 { sampleDrill with params := ⟨'L', .num 0⟩ :: sampleDrill.params.take 4 }
    (Position.make xyz .mm []) .selectXYPlane false true xyz) = ([], .done) := by decide +kernel

/-- An expansion and its end, in absolute mode with G98 ... -/
example : simplify 9 { sampleDrill with params := sampleDrill.params.take 4 } (Position.make xyz .mm [(.X, 7), (.Z, 5)])
    .selectXYPlane false false xyz =
    ([rapidXY 4 1, rapidZ 2, feedZ (-3), rapidZ 5], .done) := by decide +kernel
/-- ... and two holes of a pecking cycle in incremental mode with G99. -/
example : simplify 9 ⟨.drillingCyclePeck, ⟨'G', .num 83⟩, [⟨'X', .num 4⟩, ⟨'Y', .num 0⟩, ⟨'Z', .num (-3)⟩, ⟨'R', .num 1⟩,
      ⟨'Q', .num 2⟩, ⟨'L', .num 2⟩], false⟩ (Position.make xyz .mm [(.X, 7), (.Z, 5)]) .selectXYPlane true true xyz =
    ([rapidZ 1, ⟨.rapidMove, ⟨'G', .num 0⟩, [⟨'X', .num 4⟩], false⟩, feedZ (-2), rapidZ 2, rapidZ (-19 / 10),
      feedZ (-11 / 10), rapidZ 3, ⟨.rapidMove, ⟨'G', .num 0⟩, [⟨'X', .num 4⟩], false⟩, feedZ (-2), rapidZ 2,
      rapidZ (-19 / 10), feedZ (-11 / 10), rapidZ 3], .done) := by decide +kernel

/-- The U coordinate of a cycle is lost in the expansion. -/
example : (simplify 9 ⟨.drillingCycle, ⟨'G', .num 81⟩, [⟨'X', .num 4⟩, ⟨'Y', .num 1⟩, ⟨'Z', .num (-3)⟩, ⟨'R', .num 2⟩,
      ⟨'U', .num 6⟩], false⟩ (Position.make {.X, .Y, .Z, .U} .mm []) .selectXYPlane false false {.X, .Y, .Z, .U}) =
      ([rapidZ 2, rapidXY 4 1, feedZ (-3), rapidZ 0], .done) ∧
    (({ newWith {.X, .Y, .Z, .U} sampleMode with ignoreInvalid := false } : Machine).process
      ⟨.drillingCycle, ⟨'G', .num 81⟩, [⟨'X', .num 4⟩, ⟨'Y', .num 1⟩, ⟨'Z', .num (-3)⟩, ⟨'R', .num 2⟩,
      ⟨'U', .num 6⟩], false⟩).1.absPos.val .U = 6 := by decide +kernel

/-! ## C50 -/

/-- G83 or G73. -/
def Pecks (g : GCode) : Prop := g.cls = .drillingCyclePeck ∨ g.cls = .drillingCycleChipBreaking

theorem passDepth_cases (g : GCode) (hg : IsCycle g) (r b : ℚ) :
    (Pecks g ∧ passDepth g r b = (g.num? 'Q').map (fun q => -|q|)) ∨
    (¬ Pecks g ∧ passDepth g r b = some (b - r)) := by
  obtain ⟨-, -, -, h4, h5⟩ := cycle_table g.cls hg.1 hg.2
  unfold passDepth Pecks
  by_cases h : g.cls = .drillingCyclePeck ∨ g.cls = .drillingCycleChipBreaking
  · left
    refine ⟨h, ?_⟩
    rw [if_pos]
    rw [Bool.or_eq_true, h4, h5]; exact h
  · right
    refine ⟨h, ?_⟩
    rw [if_neg]
    rw [Bool.or_eq_true, h4, h5]; exact h

/-- Depths of one hole: strictly descending feed moves from the retract level to exactly the bottom;
with pecking none goes more than |Q| deeper than the one before, and there are as many as needed;
without pecking there is one. -/
structure Drilled (g : GCode) (r b : ℚ) (ds : List ℚ) : Prop where
  last : ds.getLast? = some b
  within : ∀ d ∈ ds, b ≤ d ∧ d ≤ r
  descending : ds.Pairwise (· > ·)
  peck : Pecks g → ∀ q, g.num? 'Q' = some q → List.IsChain (fun a b => a - b ≤ |q|) (r :: ds) ∧
    (b < r → (ds.length : ℤ) = ⌈(r - b) / |q|⌉)
  single : ¬ Pecks g → ds = [b]

theorem drilled_of_loop (fuel : ℕ) (g : GCode) (hg : IsCycle g) (r b delta : ℚ) (hb : b ≤ r) (dl : List GCode)
    (hpd : passDepth g r b = some delta)
    (hdl : drillLoop (g.cls.isSub .drillingCycleChipBreaking) r b delta fuel r r = (dl, .done)) :
    Drilled g r b (feedZs dl) := by
  obtain ⟨h1, h2⟩ := drill_feeds _ r b delta fuel r dl hdl hb
  have hdelta : delta ≤ 0 := by
    rcases passDepth_cases g hg r b with ⟨-, h⟩ | ⟨-, h⟩
    · rw [h] at hpd
      cases hq : g.num? 'Q' with
      | none => rw [hq] at hpd; cases hpd
      | some q =>
        rw [hq] at hpd
        simp only [Option.map_some, Option.some.injEq] at hpd
        have := abs_nonneg q
        linarith
    · rw [h, Option.some.injEq] at hpd; linarith
  rcases hb.lt_or_eq with hlt | heq
  · obtain ⟨hl, hch⟩ := h2 hlt
    have hpw : List.Pairwise (fun a b : ℚ => b < a) (r :: feedZs dl) :=
      List.isChain_iff_pairwise.1 (hch.imp (fun _ _ h => h.1))
    refine ⟨hl, ?_, (List.pairwise_cons.1 hpw).2, ?_, ?_⟩
    · intro d hd
      exact ⟨drill_above _ r b delta fuel r dl hdl d hd, ((List.pairwise_cons.1 hpw).1 d hd).le⟩
    · intro hp q hq
      rcases passDepth_cases g hg r b with ⟨-, h⟩ | ⟨h, -⟩
      · rw [h, hq, Option.map_some, Option.some.injEq] at hpd
        have hn : -delta = |q| := by linarith
        refine ⟨hch.imp (fun _ _ h => hn ▸ h.2), fun _ => ?_⟩
        rw [drill_passes _ r b delta fuel r dl hdl hlt, hn]
      · exact absurd hp h
    · intro hp
      rcases passDepth_cases g hg r b with ⟨h, -⟩ | ⟨-, h⟩
      · exact absurd h hp
      · rw [h, Option.some.injEq] at hpd
        have hlen := drill_passes _ r b delta fuel r dl hdl hlt
        have h1 : (r - b) / -delta = 1 := by
          rw [← hpd, neg_sub]; exact div_self (by linarith)
        rw [h1, Int.ceil_one] at hlen
        have hlen' : (feedZs dl).length = 1 := by exact_mod_cast hlen
        obtain ⟨d, hd⟩ := List.length_eq_one_iff.1 hlen'
        rw [hd] at hl ⊢
        simpa using hl
  · have := h1 heq.symm hdelta
    rw [this]
    refine ⟨rfl, ?_, List.pairwise_singleton _ _, ?_, fun _ => rfl⟩
    · intro d hd
      rw [List.mem_singleton] at hd
      rw [hd]; exact ⟨le_refl _, heq.le⟩
    · intro _ q _
      refine ⟨?_, fun h => by linarith⟩
      rw [List.isChain_cons_cons]
      refine ⟨?_, List.isChain_singleton _⟩
      rw [heq, sub_self]; exact abs_nonneg q

/-- The path of a successful expansion consists of one part per hole (moves that stand still being
left out in incremental mode), and each hole is drilled as `Drilled` says, at its place. -/
theorem C50_depths (fuel : ℕ) (g : GCode) (hg : IsCycle g) (start : Position) (hw : start.WF)
    (hax : xyz ⊆ start.axes) (incr toR : Bool) (out : List GCode)
    (h : simplify fuel g start .selectXYPlane incr toR start.axes = (out, .done))
    (m : Machine) (hm : Ready m start.axes incr start.val) :
    ∃ paths : List Path,
      track m out = (if incr then dropStill start.val paths.flatten else paths.flatten) ∧
      paths.length = reps g ∧
      ∀ (i : ℕ) (p : Path), paths[i]? = some p →
        Drilled g (retractLevel g start incr) (bottomLevel g start incr) (feedDepths p) ∧
        ∀ s ∈ p, s.1 = .linearMove →
          s.2 .X = holeAt g incr (start.val .X) .X i ∧ s.2 .Y = holeAt g incr (start.val .Y) .Y i := by
  have hz : Axis.Z ∈ start.axes := hax (by decide)
  obtain ⟨inner, h1, h2, -⟩ := simplify_path fuel g hg start hw hax incr toR out h m hm
  obtain ⟨hc, segs, rfl, hl, hs⟩ := inner_segs fuel g hg start hz incr toR inner h1
  obtain ⟨paths, p1, p2, p3, -⟩ := segs_path fuel g (start.val .Z) toR _ _ (holeAt g incr (start.val .X) .X)
    (holeAt g incr (start.val .Y) .Y) segs hs start.axes hax start.val (.inl rfl)
  refine ⟨paths, by rw [h2, p1], p2.trans hl, ?_⟩
  intro i p hp
  obtain ⟨w', hw', -, seg, hseg, rfl⟩ := p3 i p hp
  have hh := hs i seg hseg
  obtain ⟨-, q2, ⟨delta, dl, q3, q4, q5⟩, -⟩ := hole_path fuel g _ toR _ _ _ _ seg hh start.axes hax w' hw'
  refine ⟨?_, q2⟩
  rw [q5]
  exact drilled_of_loop fuel g hg _ _ delta ((hole_done _ _ _ _ _ _ _ _ _).1 hh).1 dl q3 q4

/-- Depths of the pecking cycle of the example: 3 deep with Q2. -/
example : feedDepths (walk false xyz (fun _ => 0) (simplify 9 ⟨.drillingCyclePeck, ⟨'G', .num 83⟩,
    [⟨'X', .num 4⟩, ⟨'Y', .num 0⟩, ⟨'Z', .num (-4)⟩, ⟨'R', .num 1⟩, ⟨'Q', .num 2⟩], false⟩
    (Position.make xyz .mm []) .selectXYPlane false true xyz).1) = [-1, -3, -4] := by decide +kernel

/-! ## C51 -/

theorem loop_status (gs : List GCode) (m : Machine) (s : Status) :
    (abs2relLoop m gs s).2 = s ∨ ∃ e, (abs2relLoop m gs s).2 = .raised e := by
  induction gs generalizing m with
  | nil => exact .inl rfl
  | cons x gs ih =>
    unfold abs2relLoop
    cases ho : abs2relOne m x with
    | mk m' r =>
      cases r with
      | error e => exact .inr ⟨e, rfl⟩
      | ok o => exact ih m'

theorem abs2rel_status (ax : Finset Axis) (start : Position) (r : Gen) :
    (abs2rel ax start r).2 = r.2 ∨ ∃ e, (abs2rel ax start r).2 = .raised e := by
  unfold abs2rel
  cases (newWith ax g90Mode).setPos start with
  | mk m e =>
    cases e with
    | some e => exact .inr ⟨e, rfl⟩
    | none => exact loop_status r.1 m r.2

theorem hole_fuel (fuel N : ℕ) (g : GCode) (z : Except Err ℚ) (toR : Bool) (r b : ℚ) (x y : Option ℚ)
    (hN : N ≤ fuel) (hd : b ≤ r → ∀ delta, passDepth g r b = some delta →
      (drillLoop (g.cls.isSub .drillingCycleChipBreaking) r b delta N r r).2 = .done) :
    hole fuel g z toR r b x y = hole N g z toR r b x y ∧ (hole N g z toR r b x y).2 ≠ .running := by
  unfold hole
  by_cases hrb : r < b
  · rw [if_pos hrb, if_pos hrb]
    exact ⟨rfl, by simp⟩
  · rw [if_neg hrb, if_neg hrb]
    cases z with
    | error e => exact ⟨rfl, by simp⟩
    | ok z0 =>
      cases x with
      | none => exact ⟨rfl, by simp [Gen.pre]⟩
      | some x =>
        cases y with
        | none => exact ⟨rfl, by simp [Gen.pre]⟩
        | some y =>
          cases hp : passDepth g r b with
          | none => exact ⟨rfl, by simp [Gen.pre]⟩
          | some delta =>
            have h1 := hd (not_lt.1 hrb) delta hp
            obtain ⟨k, rfl⟩ := Nat.exists_eq_add_of_le hN
            simp only [drill_more _ r b delta N r h1 k]
            refine ⟨trivial, ?_⟩
            simp only [Gen.pre, Gen.andThen, h1]
            split_ifs <;> simp

theorem andThen_running (r s : Gen) (hr : r.2 ≠ .running) (hs : s.2 ≠ .running) : (Gen.andThen r s).2 ≠ .running := by
  unfold Gen.andThen
  rcases r with ⟨a, _ | e | _⟩
  · exact hs
  · exact hr
  · exact hr

theorem holes_fuel (fuel N : ℕ) (g : GCode) (start : Position) (incr toR : Bool) (n : ℕ) (x y : ℚ) (hN : N ≤ fuel)
    (hd : bottomLevel g start incr ≤ retractLevel g start incr →
      ∀ delta, passDepth g (retractLevel g start incr) (bottomLevel g start incr) = some delta →
      (drillLoop (g.cls.isSub .drillingCycleChipBreaking) (retractLevel g start incr) (bottomLevel g start incr)
        delta N (retractLevel g start incr) (retractLevel g start incr)).2 = .done) :
    holes fuel g start incr toR n x y = holes N g start incr toR n x y ∧
      (holes N g start incr toR n x y).2 ≠ .running := by
  induction n generalizing x y with
  | zero => exact ⟨rfl, by simp [holes]⟩
  | succ n ih =>
    rw [holes, holes]
    cases incr with
    | true =>
      simp only [if_true]
      cases hz : start.get .Z with
      | error e => exact ⟨rfl, by simp⟩
      | ok z0 =>
        have hz0 : start.val .Z = z0 := by
          unfold Position.get at hz
          split_ifs at hz
          exact Except.ok.inj hz
        cases hR : g.num? 'R' with
        | none => exact ⟨rfl, by simp⟩
        | some r =>
          cases hZ : g.num? 'Z' with
          | none => exact ⟨rfl, by simp⟩
          | some z =>
            cases hX : g.num? 'X' with
            | none => exact ⟨rfl, by simp⟩
            | some dx =>
              cases hY : g.num? 'Y' with
              | none => exact ⟨rfl, by simp⟩
              | some dy =>
                simp only [retractLevel, bottomLevel, if_true, hR, hZ, Option.getD_some, hz0] at hd
                obtain ⟨h1, h2⟩ := hole_fuel fuel N g (.ok z0) toR (z0 + r) (z0 + r + z) (some (x + dx)) (some (y + dy))
                  hN hd
                obtain ⟨h3, h4⟩ := ih (x + dx) (y + dy)
                simp only [h1, h3]
                exact ⟨trivial, andThen_running _ _ h2 h4⟩
    | false =>
      simp only [Bool.false_eq_true, if_false]
      cases hR : g.num? 'R' with
      | none => exact ⟨rfl, by simp⟩
      | some r =>
        cases hZ : g.num? 'Z' with
        | none => exact ⟨rfl, by simp⟩
        | some z =>
          simp only [retractLevel, bottomLevel, Bool.false_eq_true, if_false, hR, hZ, Option.getD_some] at hd
          obtain ⟨h1, h2⟩ := hole_fuel fuel N g (start.get .Z) toR r z (g.num? 'X') (g.num? 'Y') hN hd
          obtain ⟨h3, h4⟩ := ih x y
          simp only [h1, h3]
          exact ⟨trivial, andThen_running _ _ h2 h4⟩

/-- Enough passes for a hole. -/
theorem enough (g : GCode) (hg : IsCycle g) (r b : ℚ)
    (hq : Pecks g → g.num? 'Q' = some 0 → r ≤ b) :
    ∃ N : ℕ, b ≤ r → ∀ delta, passDepth g r b = some delta →
      (drillLoop (g.cls.isSub .drillingCycleChipBreaking) r b delta N r r).2 = .done := by
  rcases passDepth_cases g hg r b with ⟨hp, h⟩ | ⟨-, h⟩
  · cases hQ : g.num? 'Q' with
    | none => exact ⟨0, fun _ delta hd => by rw [h, hQ] at hd; cases hd⟩
    | some q =>
      by_cases hq0 : q = 0
      · subst hq0
        refine ⟨1, fun hb delta hd => drill_ends _ r b delta 0 r ?_⟩
        rw [h, hQ] at hd
        have hr := hq hp hQ
        simp only [Option.map_some, abs_zero, neg_zero, Option.some.injEq] at hd
        rw [← hd]; simp; linarith
      · obtain ⟨N, hN⟩ := exists_nat_ge ((r - b) / |q|)
        refine ⟨N + 1, fun _ delta hd => drill_ends _ r b delta N r ?_⟩
        rw [h, hQ] at hd
        simp only [Option.map_some, Option.some.injEq] at hd
        have hpos : 0 < |q| := abs_pos.2 hq0
        rw [div_le_iff₀ hpos] at hN
        rw [← hd]
        push_cast
        nlinarith
  · refine ⟨1, fun _ delta hd => drill_ends _ r b delta 0 r ?_⟩
    rw [h, Option.some.injEq] at hd
    rw [← hd]; push_cast; linarith

/-- The expansion ends, in one way or another, unless a pecking cycle has Q0 and a depth to drill: from
some number of allowed passes on, the outcome is always the same and not cut short. -/
theorem C51_terminates_partial (g : GCode) (hg : IsCycle g) (start : Position) (plane : Cls) (incr toR : Bool)
    (axes : Finset Axis)
    (hq : Pecks g → g.num? 'Q' = some 0 → retractLevel g start incr ≤ bottomLevel g start incr) :
    ∃ N, ∀ fuel, N ≤ fuel →
      simplify fuel g start plane incr toR axes = simplify N g start plane incr toR axes ∧
      (simplify fuel g start plane incr toR axes).2 ≠ .running := by
  obtain ⟨N, hN⟩ := enough g hg (retractLevel g start incr) (bottomLevel g start incr) hq
  refine ⟨N, fun fuel hf => ?_⟩
  have hin : cannedInner fuel g start incr toR = cannedInner N g start incr toR ∧
      (cannedInner N g start incr toR).2 ≠ .running := by
    rw [inner_eq fuel g hg, inner_eq N g hg]
    exact holes_fuel fuel N g start incr toR _ _ _ hf hN
  unfold simplify
  rw [hin.1]
  refine ⟨rfl, ?_⟩
  rw [if_neg (by rw [hg.1]; simp)]
  split_ifs
  · simp
  · rcases abs2rel_status axes start (cannedInner N g start incr toR) with h | ⟨e, h⟩
    · rw [h]; exact hin.2
    · rw [h]; simp
  · exact hin.2

theorem mem_andThen {r s : Gen} {c : GCode} (h : c ∈ (Gen.andThen r s).1) : c ∈ r.1 ∨ c ∈ s.1 := by
  unfold Gen.andThen at h
  rcases r with ⟨a, _ | e | _⟩
  · exact List.mem_append.1 h
  · exact .inl h
  · exact .inl h

theorem mem_pre {l : List GCode} {r : Gen} {c : GCode} (h : c ∈ (Gen.pre l r).1) : c ∈ l ∨ c ∈ r.1 :=
  List.mem_append.1 h

/-- Whatever becomes of it, the expansion yields only moves. -/
theorem hole_moves (fuel : ℕ) (g : GCode) (z : Except Err ℚ) (toR : Bool) (r b : ℚ) (x y : Option ℚ) :
    ∀ c ∈ (hole fuel g z toR r b x y).1, GOK c ∧ Named c ∧ IsMove c := by
  obtain ⟨h1, h2, h3⟩ := moves_ok
  have hz : ∀ (p : Prop) [Decidable p] (z : ℚ), ∀ c ∈ (if p then [rapidZ z] else []), GOK c ∧ Named c ∧ IsMove c := by
    intro p _ z c hc
    split_ifs at hc
    · rw [List.mem_singleton] at hc; subst hc; exact h1 z
    · cases hc
  intro c hc
  unfold hole at hc
  by_cases hrb : r < b
  · rw [if_pos hrb] at hc; cases hc
  · rw [if_neg hrb] at hc
    cases z with
    | error e => cases hc
    | ok z0 =>
      rcases mem_pre hc with hc | hc
      · exact hz _ _ c hc
      · cases x with
        | none => cases hc
        | some x =>
          cases y with
          | none => cases hc
          | some y =>
            rcases mem_pre hc with hc | hc
            · rcases List.mem_cons.1 hc with rfl | hc
              · exact h3 x y
              · exact hz _ _ c hc
            · cases hp : passDepth g r b with
              | none => rw [hp] at hc; cases hc
              | some delta =>
                rw [hp] at hc
                rcases mem_andThen hc with hc | hc
                · obtain ⟨z, rfl | rfl⟩ := drill_vertical _ r b delta fuel r c hc
                  · exact h1 z
                  · exact h2 z
                · by_cases hd : g.cls.isSub .drillingCycleDwell = true
                  · rw [if_pos hd] at hc; cases hc
                  · rw [if_neg hd] at hc
                    rw [List.mem_singleton] at hc
                    subst hc; exact h1 _

theorem holes_moves (fuel : ℕ) (g : GCode) (start : Position) (incr toR : Bool) (n : ℕ) (x y : ℚ) :
    ∀ c ∈ (holes fuel g start incr toR n x y).1, GOK c ∧ Named c ∧ IsMove c := by
  induction n generalizing x y with
  | zero => intro c hc; cases hc
  | succ n ih =>
    intro c hc
    rw [holes] at hc
    cases incr with
    | true =>
      simp only [if_true] at hc
      cases hz : start.get .Z with
      | error e => rw [hz] at hc; cases hc
      | ok z0 =>
        rw [hz] at hc
        cases hR : g.num? 'R' <;> cases hZ : g.num? 'Z' <;> cases hX : g.num? 'X' <;> cases hY : g.num? 'Y' <;>
          simp only [hR, hZ, hX, hY] at hc
        case some.some.some.some =>
          rcases mem_andThen hc with hc | hc
          · exact hole_moves _ _ _ _ _ _ _ _ c hc
          · exact ih _ _ c hc
        all_goals cases hc
    | false =>
      simp only [Bool.false_eq_true, if_false] at hc
      cases hR : g.num? 'R' <;> cases hZ : g.num? 'Z' <;> simp only [hR, hZ] at hc
      case some.some =>
        rcases mem_andThen hc with hc | hc
        · exact hole_moves _ _ _ _ _ _ _ _ c hc
        · exact ih _ _ c hc
      all_goals cases hc

theorem loop_moves (gs : List GCode) (hgs : ∀ g ∈ gs, GOK g ∧ Named g ∧ IsMove g) (s : Status)
    {ax : Finset Axis} {w : Axis → ℚ} {m : Machine} (hm : Ready m ax false w) : (abs2relLoop m gs s).2 = s := by
  induction gs generalizing w m with
  | nil => rfl
  | cons g gs ih =>
    obtain ⟨hg, hn, hmv⟩ := hgs g List.mem_cons_self
    obtain ⟨m', -, hm', hone⟩ := abs2relOne_move hm g hg hn hmv
    unfold abs2relLoop
    rw [hone]
    exact ih (fun x hx => hgs x (List.mem_cons_of_mem _ hx)) hm'

/-- The conversion to incremental mode does not change how an expansion ends. -/
theorem simplify_status (fuel : ℕ) (g : GCode) (hg : IsCycle g) (start : Position) (hw : start.WF)
    (incr toR : Bool) :
    (simplify fuel g start .selectXYPlane incr toR start.axes).2 =
      (holes fuel g start incr toR (reps g) (start.val .X) (start.val .Y)).2 := by
  unfold simplify
  rw [if_neg (by rw [hg.1]; simp), if_neg (by decide +kernel), inner_eq fuel g hg]
  cases incr with
  | false => rfl
  | true =>
    rw [if_pos rfl]
    obtain ⟨a, ha1, ha⟩ := abs2rel_machine start.axes start rfl hw
    unfold abs2rel
    rw [ha1]
    exact loop_moves _ (holes_moves _ _ _ _ _ _ _ _) _ ha

/-- The first hole of an expansion with all its parameters. -/
theorem holes_first (fuel : ℕ) (g : GCode) (hc : Complete g) (start : Position) (hz : Axis.Z ∈ start.axes)
    (incr toR : Bool) (n : ℕ) (x y : ℚ) :
    ∃ rest, holes fuel g start incr toR (n + 1) x y =
      Gen.andThen (hole fuel g (.ok (start.val .Z)) toR (retractLevel g start incr) (bottomLevel g start incr)
        (some (holeAt g incr x .X 0)) (some (holeAt g incr y .Y 0))) rest := by
  obtain ⟨h1, h2, h3, h4⟩ := hc
  obtain ⟨r, hr⟩ := Option.ne_none_iff_exists'.1 h1
  obtain ⟨z, hz'⟩ := Option.ne_none_iff_exists'.1 h2
  obtain ⟨dx, hx⟩ := Option.ne_none_iff_exists'.1 h3
  obtain ⟨dy, hy⟩ := Option.ne_none_iff_exists'.1 h4
  have gx : given g .X = dx := by show (g.num? 'X').getD 0 = dx; rw [hx]; rfl
  have gy : given g .Y = dy := by show (g.num? 'Y').getD 0 = dy; rw [hy]; rfl
  rw [holes]
  cases incr with
  | true =>
    simp only [if_true, get_Z start hz, hr, hz', hx, hy, retractLevel, bottomLevel, holeAt, Option.getD_some, gx, gy]
    refine ⟨holes fuel g start true toR n (x + dx) (y + dy), ?_⟩
    norm_num
  | false =>
    simp only [Bool.false_eq_true, if_false, get_Z start hz, hr, hz', hx, hy, retractLevel, bottomLevel, holeAt,
      Option.getD_some, gx, gy]
    exact ⟨_, rfl⟩

/-- G83 or G73 with Q0 and a depth to drill: whatever the number of passes allowed, the first hole is
not finished. -/
theorem C51_never_refuted (g : GCode) (hg : IsCycle g) (hp : Pecks g) (hq : g.num? 'Q' = some 0) (hc : Complete g)
    (start : Position) (hw : start.WF) (hax : xyz ⊆ start.axes) (incr toR : Bool) (hL : 1 ≤ reps g)
    (hd : bottomLevel g start incr < retractLevel g start incr) (fuel : ℕ) :
    (simplify fuel g start .selectXYPlane incr toR start.axes).2 = .running := by
  rw [simplify_status fuel g hg start hw]
  obtain ⟨n, hn⟩ : ∃ n, reps g = n + 1 := ⟨reps g - 1, by omega⟩
  obtain ⟨rest, hrest⟩ := holes_first fuel g hc start (hax (by decide)) incr toR n (start.val .X) (start.val .Y)
  rw [hn, hrest]
  have hpd : passDepth g (retractLevel g start incr) (bottomLevel g start incr) = some 0 := by
    rcases passDepth_cases g hg (retractLevel g start incr) (bottomLevel g start incr) with ⟨-, h⟩ | ⟨h, -⟩
    · rw [h, hq]; simp
    · exact absurd hp h
  have hst := drill_stuck (g.cls.isSub .drillingCycleChipBreaking) (retractLevel g start incr)
    (bottomLevel g start incr) 0 (le_refl 0) fuel (retractLevel g start incr) hd
  have hh : (hole fuel g (.ok (start.val .Z)) toR (retractLevel g start incr) (bottomLevel g start incr)
        (some (holeAt g incr (start.val .X) .X 0)) (some (holeAt g incr (start.val .Y) .Y 0))).2 = .running := by
    unfold hole
    rw [if_neg (not_lt.2 hd.le)]
    simp only [Gen.pre, Gen.andThen, hpd, hst]
  unfold Gen.andThen
  simp only [hh]

/-- `G83 X4 Y0 Z-3 R1 Q0`. -/
def sampleStuck : GCode :=
  ⟨.drillingCyclePeck, ⟨'G', .num 83⟩, [⟨'X', .num 4⟩, ⟨'Y', .num 0⟩, ⟨'Z', .num (-3)⟩, ⟨'R', .num 1⟩,
    ⟨'Q', .num 0⟩], false⟩

/-- There are canned cycles whose expansion never ends. -/
theorem C51_refuted : ∃ (g : GCode) (start : Position), IsCycle g ∧ GOK g ∧ start.WF ∧ xyz ⊆ start.axes ∧
    ∀ fuel incr toR, (simplify fuel g start .selectXYPlane incr toR start.axes).2 = .running := by
  refine ⟨sampleStuck, Position.make xyz .mm [], ⟨by decide +kernel, by decide +kernel⟩,
    ⟨by decide +kernel, by decide +kernel⟩, ?_, by decide +kernel, ?_⟩
  · intro a _; cases a <;> rfl
  · intro fuel incr toR
    refine C51_never_refuted _ ⟨by decide +kernel, by decide +kernel⟩ (.inl rfl) (by decide +kernel)
      ⟨by decide +kernel, by decide +kernel, by decide +kernel, by decide +kernel⟩ _
      (by intro a _; cases a <;> rfl) (by decide +kernel) incr toR (by decide +kernel) ?_ fuel
    cases incr <;> decide +kernel

/-- In incremental mode it does not even yield the feed moves: they stand still. -/
example : simplify 50 sampleStuck (Position.make xyz .mm []) .selectXYPlane true true xyz =
    ([rapidZ 1, ⟨.rapidMove, ⟨'G', .num 0⟩, [⟨'X', .num 4⟩], false⟩], .running) := by decide +kernel
example : (simplify 3 { sampleStuck with params := [⟨'X', .num 4⟩, ⟨'Y', .num 0⟩, ⟨'Z', .num (-3)⟩, ⟨'R', .num 1⟩,
    ⟨'Q', .num 2⟩] } (Position.make xyz .mm []) .selectXYPlane false true xyz).2 = .done := by decide +kernel

/-! ## C52 -/

/-- Starting above the material, rapid moves of an expansion never enter material that has not been
removed before, and moves in the plane are made at or above the retract level; with G98, provided
the start is not below the bottom of the hole. -/
theorem C52_safe (fuel : ℕ) (g : GCode) (hg : IsCycle g) (start : Position) (hw : start.WF)
    (hax : xyz ⊆ start.axes) (incr toR : Bool) (out : List GCode)
    (h : simplify fuel g start .selectXYPlane incr toR start.axes = (out, .done))
    (m : Machine) (hm : Ready m start.axes incr start.val)
    (cut : ℚ → ℚ → ℚ) (hcut : ∀ x y, cut x y ≤ retractLevel g start incr)
    (hs : cut (start.val .X) (start.val .Y) ≤ start.val .Z)
    (hok : toR = true ∨ bottomLevel g start incr ≤ start.val .Z) :
    SafePath (retractLevel g start incr) cut start.val (track m out) := by
  have hz : Axis.Z ∈ start.axes := hax (by decide)
  obtain ⟨inner, h1, h2, -⟩ := simplify_path fuel g hg start hw hax incr toR out h m hm
  obtain ⟨hc, segs, rfl, hl, hs'⟩ := inner_segs fuel g hg start hz incr toR inner h1
  obtain ⟨paths, p1, -, -, -, p5⟩ := segs_path fuel g (start.val .Z) toR _ _ (holeAt g incr (start.val .X) .X)
    (holeAt g incr (start.val .Y) .Y) segs hs' start.axes hax start.val (.inl rfl)
  have h3 := p5 cut hcut hok
  rw [h2, p1]
  cases incr with
  | false => exact h3
  | true => exact safePath_dropStill _ cut hcut _ hs _ h3

/-- With G98 and a start below the bottom of the hole, the last rapid move goes into material that
nothing has removed. -/
theorem C52_plunge (fuel : ℕ) (g : GCode) (hg : IsCycle g) (start : Position) (hw : start.WF)
    (hax : xyz ⊆ start.axes) (out : List GCode) (hL : reps g = 1)
    (h : simplify fuel g start .selectXYPlane false false start.axes = (out, .done))
    (m : Machine) (hm : Ready m start.axes false start.val)
    (cut : ℚ → ℚ → ℚ) (hcut : ∀ x y, bottomLevel g start false ≤ cut x y)
    (hlow : start.val .Z < bottomLevel g start false) :
    ¬ SafePath (retractLevel g start false) cut start.val (track m out) := by
  have hz : Axis.Z ∈ start.axes := hax (by decide)
  obtain ⟨inner, h1, h2, -⟩ := simplify_path fuel g hg start hw hax false false out h m hm
  obtain ⟨hc, segs, rfl, hl, hs'⟩ := inner_segs fuel g hg start hz false false inner h1
  rw [hL] at hl
  obtain ⟨seg, rfl⟩ := List.length_eq_one_iff.1 hl
  have h0 := hs' 0 seg rfl
  obtain ⟨-, -, -, -, hun⟩ := hole_path fuel g _ _ _ _ _ _ seg h0 start.axes hax start.val (.inl rfl)
  rw [h2]
  simp only [Bool.false_eq_true, if_false, List.flatten_cons, List.flatten_nil, List.append_nil]
  exact hun cut hcut rfl hlow

/-- `G81 X4 Y1 Z-3 R2` from `Z-5` with G98: up, over, down to the bottom, and then a rapid to `Z-5`. -/
example : simplify 9 { sampleDrill with params := sampleDrill.params.take 4 } (Position.make xyz .mm [(.Z, -5)])
    .selectXYPlane false false xyz = ([rapidZ 2, rapidXY 4 1, feedZ (-3), rapidZ (-5)], .done) := by decide +kernel

/-! ## C53 -/

theorem drillLoop_done_iff (g : GCode) (hg : IsCycle g) (r b : ℚ) (hb : b ≤ r) :
    (∃ fuel delta dl, passDepth g r b = some delta ∧
      drillLoop (g.cls.isSub .drillingCycleChipBreaking) r b delta fuel r r = (dl, .done)) ↔
    (Pecks g → ∃ q, g.num? 'Q' = some q ∧ (q ≠ 0 ∨ b = r)) := by
  constructor
  · rintro ⟨fuel, delta, dl, h1, h2⟩ hp
    rcases passDepth_cases g hg r b with ⟨-, h⟩ | ⟨h, -⟩
    · cases hq : g.num? 'Q' with
      | none => rw [h, hq] at h1; cases h1
      | some q =>
        refine ⟨q, rfl, ?_⟩
        by_contra hno
        push Not at hno
        obtain ⟨rfl, hne⟩ := hno
        rw [h, hq] at h1
        simp only [Option.map_some, abs_zero, neg_zero, Option.some.injEq] at h1
        have := drill_stuck (g.cls.isSub .drillingCycleChipBreaking) r b delta h1.le fuel r (lt_of_le_of_ne hb hne)
        rw [h2] at this
        cases this
    · exact absurd hp h
  · intro hp
    obtain ⟨N, hN⟩ := enough g hg r b (fun h1 h2 => by
      obtain ⟨q, hq, h3⟩ := hp h1
      rw [h2] at hq
      cases hq
      rcases h3 with h3 | h3
      · exact absurd rfl h3
      · exact h3.ge)
    have : ∃ delta, passDepth g r b = some delta := by
      rcases passDepth_cases g hg r b with ⟨h1, h⟩ | ⟨-, h⟩
      · obtain ⟨q, hq, -⟩ := hp h1
        exact ⟨_, by rw [h, hq]; rfl⟩
      · exact ⟨_, h⟩
    obtain ⟨delta, hd⟩ := this
    exact ⟨N, delta, _, hd, Prod.ext rfl (hN hb delta hd)⟩

/-- Exactly when the expansion succeeds. -/
theorem C53_success_partial (g : GCode) (start : Position) (hw : start.WF) (hax : xyz ⊆ start.axes)
    (plane : Cls) (hplane : plane.isSub .planeSelect = true) (hk : g.cls ≠ .cannedCycle) (incr toR : Bool) :
    (∃ fuel out, simplify fuel g start plane incr toR start.axes = (out, .done)) ↔
      g.cls.isSub .cannedCycle = true ∧ plane = .selectXYPlane ∧
      (reps g = 0 ∨ (Complete g ∧ bottomLevel g start incr ≤ retractLevel g start incr ∧
        g.cls ≠ .drillingCycleDwell ∧
        (Pecks g → ∃ q, g.num? 'Q' = some q ∧
          (q ≠ 0 ∨ bottomLevel g start incr = retractLevel g start incr)))) := by
  have hpl : plane.isSub .selectXYPlane = true ↔ plane = .selectXYPlane := by
    have := Cls.forall_of_all (p := fun c => c.isSub .selectXYPlane == (c == .selectXYPlane)) (by decide +kernel) plane
    rw [beq_iff_eq.1 this]; exact beq_iff_eq
  have hz : Axis.Z ∈ start.axes := hax (by decide)
  by_cases hc : g.cls.isSub .cannedCycle = true
  swap
  · constructor
    · rintro ⟨fuel, out, h⟩
      unfold simplify at h
      rw [if_pos (by simpa using hc)] at h
      cases congrArg Prod.snd h
    · rintro ⟨h, -⟩; exact absurd h hc
  by_cases hp : plane = .selectXYPlane
  swap
  · constructor
    · rintro ⟨fuel, out, h⟩
      unfold simplify at h
      have : plane.isSub .selectXYPlane = false := by
        cases hh : plane.isSub .selectXYPlane with
        | false => rfl
        | true => exact absurd (hpl.1 hh) hp
      rw [if_neg (by rw [hc]; simp), if_pos this] at h
      cases congrArg Prod.snd h
    · rintro ⟨-, h, -⟩; exact absurd h hp
  subst hp
  have hg : IsCycle g := ⟨hc, hk⟩
  have hdw := (cycle_table g.cls hc hk).2.2.1
  have hst : (∃ fuel out, simplify fuel g start .selectXYPlane incr toR start.axes = (out, .done)) ↔
      ∃ fuel out, holes fuel g start incr toR (reps g) (start.val .X) (start.val .Y) = (out, .done) := by
    constructor
    · rintro ⟨fuel, out, h⟩
      have := simplify_status fuel g hg start hw incr toR
      rw [h] at this
      exact ⟨fuel, _, Prod.ext rfl this.symm⟩
    · rintro ⟨fuel, out, h⟩
      have := simplify_status fuel g hg start hw incr toR
      rw [h] at this
      exact ⟨fuel, _, Prod.ext rfl this⟩
  rw [hst]
  refine Iff.trans ?_ (and_iff_right hc).symm
  refine Iff.trans ?_ (and_iff_right rfl).symm
  constructor
  · rintro ⟨fuel, out, h⟩
    obtain ⟨h0, segs, -, hl, hs⟩ := (holes_done fuel g start hz incr toR _ _ _ out).1 h
    rcases Nat.eq_zero_or_pos (reps g) with hr | hr
    · exact .inl hr
    · right
      have hcm := h0.resolve_left (by omega)
      have hseg : 0 < segs.length := by omega
      obtain ⟨h1, h2, delta, dl, h3, h4, -⟩ := (hole_done _ _ _ _ _ _ _ _ _).1 (hs 0 segs[0] (List.getElem?_eq_getElem hseg))
      refine ⟨hcm, h1, ?_, (drillLoop_done_iff g hg _ _ h1).1 ⟨fuel, delta, dl, h3, h4⟩⟩
      intro hd
      rw [hdw.2 hd] at h2
      cases h2
  · intro h
    by_cases hr : reps g = 0
    · rw [hr]; exact ⟨0, [], rfl⟩
    · obtain ⟨hcm, hb, hd, hq⟩ := h.resolve_left hr
      obtain ⟨fuel, delta, dl, h3, h4⟩ := (drillLoop_done_iff g hg _ _ hb).2 hq
      have hd' : g.cls.isSub .drillingCycleDwell = false := by
        cases hh : g.cls.isSub .drillingCycleDwell with
        | false => rfl
        | true => exact absurd (hdw.1 hh) hd
      refine ⟨fuel, _, (holes_done fuel g start hz incr toR _ _ _ _).2 ⟨.inr hcm,
        (List.range (reps g)).map (fun i => (hole fuel g (.ok (start.val .Z)) toR (retractLevel g start incr)
          (bottomLevel g start incr) (some (holeAt g incr (start.val .X) .X i))
          (some (holeAt g incr (start.val .Y) .Y i))).1), rfl, by simp, ?_⟩⟩
      intro i seg hi
      have hi' : i < reps g := by
        by_contra hlt
        rw [List.getElem?_eq_none (by simp; omega)] at hi
        cases hi
      rw [List.getElem?_map, List.getElem?_range hi'] at hi
      simp only [Option.map_some, Option.some.injEq] at hi
      rw [← hi]
      have := (hole_done fuel g (start.val .Z) toR (retractLevel g start incr) (bottomLevel g start incr)
        (holeAt g incr (start.val .X) .X i) (holeAt g incr (start.val .Y) .Y i) _).2
        ⟨hb, hd', delta, dl, h3, h4, rfl⟩
      rw [this]

/-- Expanding G82 makes the first hole and then fails. -/
theorem C53_dwell (fuel : ℕ) (g : GCode) (hg : g.cls = .drillingCycleDwell) (hc : Complete g)
    (start : Position) (hax : xyz ⊆ start.axes) (toR : Bool) (hL : 1 ≤ reps g)
    (hb : bottomLevel g start false ≤ retractLevel g start false) (axes : Finset Axis) :
    ∃ moves, simplify (fuel + 1) g start .selectXYPlane false toR axes =
      (moves ++ [feedZ (bottomLevel g start false)], .raised .name) := by
  have hcy : IsCycle g := by
    rw [IsCycle, hg]; exact ⟨by decide +kernel, by decide +kernel⟩
  obtain ⟨n, hn⟩ : ∃ n, reps g = n + 1 := ⟨reps g - 1, by omega⟩
  obtain ⟨rest, hrest⟩ := holes_first (fuel + 1) g hc start (hax (by decide)) false toR n (start.val .X) (start.val .Y)
  have hh := hole_dwell fuel g (by rw [hg]; decide +kernel) (by rw [hg]; decide +kernel) (start.val .Z) toR _ _
    (holeAt g false (start.val .X) .X 0) (holeAt g false (start.val .Y) .Y 0) hb
  unfold simplify
  rw [if_neg (by rw [hcy.1]; simp), if_neg (by decide +kernel), if_neg (by simp), inner_eq _ g hcy, hn, hrest, hh]
  exact ⟨_, rfl⟩

/-- `G82 X4 Y1 Z-3 R2 P1`. -/
def sampleDwell : GCode :=
  ⟨.drillingCycleDwell, ⟨'G', .num 82⟩, [⟨'X', .num 4⟩, ⟨'Y', .num 1⟩, ⟨'Z', .num (-3)⟩, ⟨'R', .num 2⟩,
    ⟨'P', .num 1⟩], false⟩

/-- A cycle the machine executes and the expansion does not. -/
theorem C53_refuted : ∃ (g : GCode) (m : Machine) (p : Position), GOK g ∧ m.pos = .ok p ∧ p.WF ∧ xyz ⊆ p.axes ∧
    (m.process g).2 = none ∧
    ∀ fuel out, simplify fuel g p .selectXYPlane false false p.axes ≠ (out, .done) := by
  have hb : ¬ (newWith xyz sampleMode).BadSys := by rintro ⟨h, -⟩; cases h
  refine ⟨sampleDwell, newWith xyz sampleMode, _, ⟨by decide +kernel, by decide +kernel⟩,
    pos_ok _ (newWith_wf xyz sampleMode) hb, ?_, subset_refl _, by decide +kernel, ?_⟩
  · intro a _; cases a <;> decide +kernel
  · intro fuel out h
    have := (C53_success_partial sampleDwell _ (by intro a _; cases a <;> decide +kernel) (subset_refl _)
      .selectXYPlane (by decide +kernel) (by decide +kernel) false false).1 ⟨fuel, out, h⟩
    rcases this.2.2 with h1 | ⟨-, -, h1, -⟩
    · revert h1; decide +kernel
    · exact h1 rfl

/-- The other failures: missing R, missing X, another plane, drilling upward. -/
example : simplify 9 { sampleDrill with params := [⟨'X', .num 4⟩, ⟨'Y', .num 1⟩, ⟨'Z', .num (-3)⟩] }
    (Position.make xyz .mm []) .selectXYPlane false false xyz = ([], .raised .type) := by decide +kernel
example : simplify 9 { sampleDrill with params := [⟨'R', .num 4⟩, ⟨'Y', .num 1⟩, ⟨'Z', .num (-3)⟩] }
    (Position.make xyz .mm []) .selectXYPlane false false xyz = ([rapidZ 4], .raised .type) := by decide +kernel
example : simplify 9 sampleDrill (Position.make xyz .mm []) .selectZXPlane false false xyz =
    ([], .raised .notImpl) := by decide +kernel
example : simplify 9 { sampleDrill with params := [⟨'R', .num (-4)⟩, ⟨'X', .num 1⟩, ⟨'Y', .num 1⟩, ⟨'Z', .num (-3)⟩] }
    (Position.make xyz .mm []) .selectXYPlane false false xyz = ([], .raised .notImpl) := by decide +kernel

end Pygcode
