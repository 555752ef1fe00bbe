import Verif.Lemmas.Drill
import Verif.Props.Abs2Rel

/-!
# The structure of an expanded canned cycle
-/

namespace Pygcode
open Props Machine

/-! ## Paths of moves -/

/-- The path of moves, from `w`. -/
def walk (inc : Bool) (ax : Finset Axis) (w : Axis → ℚ) : List GCode → Path
  | [] => []
  | g :: gs => (g.cls, next inc ax g w) :: walk inc ax (next inc ax g w) gs

/-- Where a path from `w` ends. -/
def endOf (w : Axis → ℚ) (p : Path) : Axis → ℚ := (p.getLast?.map Prod.snd).getD w

theorem endOf_cons (w : Axis → ℚ) (s : Cls × (Axis → ℚ)) (p : Path) : endOf w (s :: p) = endOf s.2 p := by
  cases p with
  | nil => rfl
  | cons t p =>
    unfold endOf
    rw [List.getLast?_cons_cons]
    cases h : (t :: p).getLast? with
    | none => simp at h
    | some x => rfl

theorem endOf_append (w : Axis → ℚ) (p q : Path) : endOf w (p ++ q) = endOf (endOf w p) q := by
  induction p generalizing w with
  | nil => rfl
  | cons s p ih => rw [List.cons_append, endOf_cons, endOf_cons, ih]

theorem walk_append (inc : Bool) (ax : Finset Axis) (w : Axis → ℚ) (a b : List GCode) :
    walk inc ax w (a ++ b) = walk inc ax w a ++ walk inc ax (endOf w (walk inc ax w a)) b := by
  induction a generalizing w with
  | nil => rfl
  | cons g a ih => rw [List.cons_append, walk, walk, ih, endOf_cons, List.cons_append]

/-- A machine executing moves follows the path. -/
theorem track_walk (gs : List GCode) (hgs : ∀ g ∈ gs, GOK g ∧ IsMove g) {m : Machine} {ax : Finset Axis}
    {inc : Bool} {w : Axis → ℚ} (h : Ready m ax inc w) :
    track m gs = walk inc ax w gs ∧
      ∃ m', m.processAll gs = (m', none) ∧ Ready m' ax inc (endOf w (walk inc ax w gs)) := by
  induction gs generalizing m w with
  | nil => exact ⟨rfl, m, rfl, h⟩
  | cons g gs ih =>
    obtain ⟨hg, hmv⟩ := hgs g List.mem_cons_self
    obtain ⟨m', h1, h2, -⟩ := ready_goto h g hg (isMove_proc hmv).1
    obtain ⟨h3, m'', h4, h5⟩ := ih (fun x hx => hgs x (List.mem_cons_of_mem _ hx)) h2
    refine ⟨?_, m'', ?_, ?_⟩
    · rw [track, h1]
      simp only [ready_pos h2, h3]
      rfl
    · unfold processAll andThen; rw [h1]; exact h4
    · rw [walk, endOf_cons]; exact h5

theorem dropStill_end (w : Axis → ℚ) (p : Path) : endOf w (dropStill w p) = endOf w p := by
  induction p generalizing w with
  | nil => rfl
  | cons s p ih =>
    rw [endOf_cons, dropStill]
    split_ifs with h
    · rw [ih, h]
    · rw [endOf_cons, ih]

/-! ## The moves of an expansion -/

theorem next_Z (ax : Finset Axis) (hz : Axis.Z ∈ ax) (w : Axis → ℚ) (z : ℚ) :
    next false ax (rapidZ z) w = Function.update w .Z z ∧ next false ax (feedZ z) w = Function.update w .Z z := by
  have h : ∀ a : Axis, (GCode.num? (rapidZ z) a.letter = if a = .Z then some z else none) ∧
      (GCode.num? (feedZ z) a.letter = if a = .Z then some z else none) := by
    intro a; cases a <;> exact ⟨rfl, rfl⟩
  constructor
  all_goals
    funext a
    unfold next
    by_cases ha : a = .Z
    · subst ha
      simp [hz, h]
    · rw [Function.update_of_ne ha]
      simp [h, ha]

theorem next_XY (ax : Finset Axis) (hx : Axis.X ∈ ax) (hy : Axis.Y ∈ ax) (w : Axis → ℚ) (x y : ℚ) :
    next false ax (rapidXY x y) w = Function.update (Function.update w .X x) .Y y := by
  have h : ∀ a : Axis, (GCode.num? (rapidXY x y) a.letter =
      if a = .X then some x else if a = .Y then some y else none) := by
    intro a; cases a <;> rfl
  funext a
  unfold next
  by_cases ha : a = .Y
  · subst ha; simp [hy, h]
  · rw [Function.update_of_ne ha]
    by_cases hb : a = .X
    · subst hb; simp [hx, h]
    · rw [Function.update_of_ne hb]
      simp [h, ha, hb]

/-- Depth given by a gcode. -/
def zOf (g : GCode) : ℚ := (g.num? 'Z').getD 0

theorem walk_vertical (ax : Finset Axis) (hz : Axis.Z ∈ ax) (gs : List GCode) (h : ∀ g ∈ gs, Vertical g)
    (w : Axis → ℚ) :
    walk false ax w gs = gs.map (fun g => (g.cls, Function.update w .Z (zOf g))) := by
  induction gs generalizing w with
  | nil => rfl
  | cons g gs ih =>
    have hg : next false ax g w = Function.update w .Z (zOf g) := by
      obtain ⟨z, rfl | rfl⟩ := h g List.mem_cons_self
      · exact (next_Z ax hz w z).1
      · exact (next_Z ax hz w z).2
    rw [walk, hg, ih (fun x hx => h x (List.mem_cons_of_mem _ hx)), List.map_cons]
    simp only [Function.update_idem]

theorem moves_ok : (∀ z, GOK (rapidZ z) ∧ Named (rapidZ z) ∧ IsMove (rapidZ z)) ∧
    (∀ z, GOK (feedZ z) ∧ Named (feedZ z) ∧ IsMove (feedZ z)) ∧
    (∀ x y, GOK (rapidXY x y) ∧ Named (rapidXY x y) ∧ IsMove (rapidXY x y)) := by
  have h0 : wordClass ⟨'G', .num 0⟩ = some .rapidMove := by decide +kernel
  have h1 : wordClass ⟨'G', .num 1⟩ = some .linearMove := by decide +kernel
  refine ⟨fun z => ⟨⟨by simp [rapidZ], ?_⟩, h0, .inl rfl⟩, fun z => ⟨⟨by simp [feedZ], ?_⟩, h1, .inr rfl⟩,
    fun x y => ⟨⟨by simp [rapidXY], ?_⟩, h0, .inl rfl⟩⟩
  · intro p hp
    simp only [rapidZ, List.mem_singleton] at hp
    subst hp; show 'Z' ∈ Cls.rapidMove.params; decide +kernel
  · intro p hp
    simp only [feedZ, List.mem_singleton] at hp
    subst hp; show 'Z' ∈ Cls.linearMove.params; decide +kernel
  · intro p hp
    simp only [rapidXY, List.mem_cons, List.not_mem_nil, or_false] at hp
    rcases hp with rfl | rfl
    · show 'X' ∈ Cls.rapidMove.params; decide +kernel
    · show 'Y' ∈ Cls.rapidMove.params; decide +kernel

/-! ## One hole -/

/-- Level to which the tool returns. -/
def finalZ (toR : Bool) (retract z0 : ℚ) : ℚ := if toR then retract else z0

/-- When a hole can be made, and its moves. -/
theorem hole_done (fuel : ℕ) (g : GCode) (z0 : ℚ) (toR : Bool) (r b x y : ℚ) (out : List GCode) :
    hole fuel g (.ok z0) toR r b (some x) (some y) = (out, .done) ↔
      b ≤ r ∧ g.cls.isSub .drillingCycleDwell = false ∧ ∃ delta dl, passDepth g r b = some delta ∧
        drillLoop (g.cls.isSub .drillingCycleChipBreaking) r b delta fuel r r = (dl, .done) ∧
        out = (if r > z0 then [rapidZ r] else []) ++ (rapidXY x y :: (if r < z0 then [rapidZ r] else [])) ++ dl ++
          [rapidZ (finalZ toR r z0)] := by
  unfold hole
  by_cases hrb : r < b
  · rw [if_pos hrb]
    constructor
    · intro h; cases congrArg Prod.snd h
    · rintro ⟨h, -⟩; linarith
  · rw [if_neg hrb]
    have hle := not_lt.1 hrb
    simp only [hle, true_and]
    cases hp : passDepth g r b with
    | none =>
      constructor
      · intro h; cases congrArg Prod.snd h
      · rintro ⟨-, d, dl, h, -⟩; cases h
    | some delta =>
      cases hd : drillLoop (g.cls.isSub .drillingCycleChipBreaking) r b delta fuel r r with
      | mk dl s =>
        have hs := drill_status (g.cls.isSub .drillingCycleChipBreaking) r b delta fuel r
        rw [hd] at hs
        simp only [Option.some.injEq]
        rcases hs with hs | hs <;> simp only at hs <;> subst hs
        · cases hdw : g.cls.isSub .drillingCycleDwell
          · simp only [hd, Gen.andThen, Bool.false_eq_true, if_false, Gen.pre, true_and]
            constructor
            · intro h
              rw [Prod.mk.injEq] at h
              exact ⟨delta, dl, rfl, by rw [hd], by rw [← h.1]; simp [finalZ]⟩
            · rintro ⟨d, dl', rfl, h2, rfl⟩
              rw [hd, Prod.mk.injEq] at h2
              obtain ⟨rfl, -⟩ := h2
              simp [finalZ]
          · simp only [hd, Gen.andThen, if_true, Gen.pre]
            constructor
            · intro h; cases congrArg Prod.snd h
            · rintro ⟨h, -⟩; cases h
        · simp only [hd, Gen.andThen, Gen.pre]
          constructor
          · intro h; cases congrArg Prod.snd h
          · rintro ⟨-, d, dl', rfl, h2, -⟩
            rw [hd] at h2; cases congrArg Prod.snd h2

/-- G82: the hole is drilled, and then `NameError`. -/
theorem hole_dwell (fuel : ℕ) (g : GCode) (hg : g.cls.isSub .drillingCycleDwell = true)
    (hnp : (g.cls.isSub .drillingCyclePeck || g.cls.isSub .drillingCycleChipBreaking) = false) (z0 : ℚ)
    (toR : Bool) (r b x y : ℚ) (hrb : b ≤ r) :
    hole (fuel + 1) g (.ok z0) toR r b (some x) (some y) =
      ((if r > z0 then [rapidZ r] else []) ++ (rapidXY x y :: (if r < z0 then [rapidZ r] else [])) ++ [feedZ b],
        .raised .name) := by
  unfold hole
  rw [if_neg (not_lt.2 hrb)]
  have hp : passDepth g r b = some (b - r) := by unfold passDepth; rw [hnp]; rfl
  have hd : drillLoop (g.cls.isSub .drillingCycleChipBreaking) r b (b - r) (fuel + 1) r r = ([feedZ b], .done) := by
    rw [drillLoop_succ, if_pos]
    · have : approach r r = [] := by unfold approach; rw [if_neg]; linarith
      rw [this]; rfl
    · unfold deeper; rw [if_neg] <;> linarith
  simp only [hp, hd]
  simp [hg, Gen.andThen, Gen.pre]

/-! ## All holes -/

/-- Level above the hole (programmed as R). -/
def retractLevel (g : GCode) (start : Position) (incr : Bool) : ℚ :=
  if incr then start.val .Z + (g.num? 'R').getD 0 else (g.num? 'R').getD 0

/-- Bottom of the hole (programmed as Z). -/
def bottomLevel (g : GCode) (start : Position) (incr : Bool) : ℚ :=
  if incr then retractLevel g start incr + (g.num? 'Z').getD 0 else (g.num? 'Z').getD 0

/-- Coordinate of the `i`-th hole along an axis of the plane, in incremental mode counted from the
place `p` before. -/
def holeAt (g : GCode) (incr : Bool) (p : ℚ) (a : Axis) (i : ℕ) : ℚ :=
  if incr then p + (i + 1 : ℕ) * given g a else given g a

/-- The parameters the expansion needs are there. -/
def Complete (g : GCode) : Prop :=
  g.num? 'R' ≠ none ∧ g.num? 'Z' ≠ none ∧ g.num? 'X' ≠ none ∧ g.num? 'Y' ≠ none

theorem andThen_done (r s : Gen) (out : List GCode) :
    Gen.andThen r s = (out, .done) ↔ ∃ a b, r = (a, .done) ∧ s = (b, .done) ∧ out = a ++ b := by
  rcases r with ⟨a, _ | e | _⟩
  · rcases s with ⟨b, t⟩
    simp only [Gen.andThen, Prod.mk.injEq]
    constructor
    · rintro ⟨rfl, rfl⟩; exact ⟨a, b, ⟨rfl, trivial⟩, ⟨rfl, rfl⟩, rfl⟩
    · rintro ⟨a', b', ⟨rfl, -⟩, ⟨rfl, rfl⟩, rfl⟩; exact ⟨rfl, rfl⟩
  · simp [Gen.andThen]
  · simp [Gen.andThen]

theorem get_Z (start : Position) (hz : Axis.Z ∈ start.axes) : start.get .Z = .ok (start.val .Z) := by
  unfold Position.get; rw [if_pos hz]

theorem hole_missing (fuel : ℕ) (g : GCode) (z : Except Err ℚ) (toR : Bool) (r b : ℚ) (x y : Option ℚ)
    (h : x = none ∨ y = none) (out : List GCode) : hole fuel g z toR r b x y ≠ (out, .done) := by
  unfold hole
  intro he
  by_cases h1 : r < b
  · rw [if_pos h1] at he; cases congrArg Prod.snd he
  · rw [if_neg h1] at he
    cases z with
    | error e => cases congrArg Prod.snd he
    | ok z =>
      rcases h with rfl | rfl
      · cases congrArg Prod.snd he
      · cases x <;> cases congrArg Prod.snd he

/-- When all holes can be made, and their moves. -/
theorem holes_done (fuel : ℕ) (g : GCode) (start : Position) (hz : Axis.Z ∈ start.axes) (incr toR : Bool) (n : ℕ)
    (x y : ℚ) (out : List GCode) :
    holes fuel g start incr toR n x y = (out, .done) ↔
      (n = 0 ∨ Complete g) ∧ ∃ segs : List (List GCode), out = segs.flatten ∧ segs.length = n ∧
        ∀ i seg, segs[i]? = some seg →
          hole fuel g (.ok (start.val .Z)) toR (retractLevel g start incr) (bottomLevel g start incr)
            (some (holeAt g incr x .X i)) (some (holeAt g incr y .Y i)) = (seg, .done) := by
  have hpos : ∀ (p : ℚ) (a : Axis) (i : ℕ), holeAt g true (p + given g a) a i = holeAt g true p a (i + 1) := by
    intro p a i; simp only [holeAt, if_true]; push_cast; ring
  induction n generalizing x y out with
  | zero =>
    simp only [holes, Prod.mk.injEq, and_true, true_or, true_and]
    constructor
    · rintro rfl; exact ⟨[], rfl, rfl, by simp⟩
    · rintro ⟨segs, rfl, h, -⟩
      rw [List.length_eq_zero_iff.1 h]; rfl
  | succ n ih =>
    simp only [Nat.succ_ne_zero, false_or]
    have key : ∀ (x' y' : ℚ) (x₁ y₁ : ℚ), Complete g →
        (∀ i, holeAt g incr x₁ .X i = holeAt g incr x .X (i + 1)) →
        (∀ i, holeAt g incr y₁ .Y i = holeAt g incr y .Y (i + 1)) →
        x' = holeAt g incr x .X 0 → y' = holeAt g incr y .Y 0 →
        (Gen.andThen (hole fuel g (.ok (start.val .Z)) toR (retractLevel g start incr) (bottomLevel g start incr)
            (some x') (some y')) (holes fuel g start incr toR n x₁ y₁) = (out, .done) ↔
          Complete g ∧ ∃ segs : List (List GCode), out = segs.flatten ∧ segs.length = n + 1 ∧
            ∀ i seg, segs[i]? = some seg →
              hole fuel g (.ok (start.val .Z)) toR (retractLevel g start incr) (bottomLevel g start incr)
                (some (holeAt g incr x .X i)) (some (holeAt g incr y .Y i)) = (seg, .done)) := by
      intro x' y' x₁ y₁ hc hx hy hx' hy'
      rw [andThen_done]
      constructor
      · rintro ⟨a, b, h1, h2, rfl⟩
        obtain ⟨-, segs, rfl, hl, hs⟩ := (ih x₁ y₁ b).1 h2
        refine ⟨hc, a :: segs, rfl, by simp [hl], ?_⟩
        intro i seg hi
        cases i with
        | zero =>
          simp only [List.getElem?_cons_zero, Option.some.injEq] at hi
          subst hi
          rw [← hx', ← hy']; exact h1
        | succ i =>
          rw [← hx, ← hy]
          exact hs i seg (by simpa using hi)
      · rintro ⟨-, segs, rfl, hl, hs⟩
        cases segs with
        | nil => cases hl
        | cons a segs =>
          refine ⟨a, segs.flatten, ?_, ?_, rfl⟩
          · rw [hx', hy']; exact hs 0 a rfl
          · refine (ih x₁ y₁ _).2 ⟨.inr hc, segs, rfl, by simpa using hl, ?_⟩
            intro i seg hi
            rw [hx, hy]
            exact hs (i + 1) seg (by simpa using hi)
    have hnone : ∀ (l : Char), (l = 'R' ∨ l = 'Z' ∨ l = 'X' ∨ l = 'Y') → g.num? l = none → ¬ Complete g := by
      rintro l (rfl | rfl | rfl | rfl) hl ⟨h1, h2, h3, h4⟩ <;> contradiction
    cases incr with
    | true =>
      rw [holes]
      simp only [if_true, get_Z start hz]
      cases hR : g.num? 'R' with
      | none =>
        simp only
        exact ⟨fun h => (by cases congrArg Prod.snd h), fun h => absurd h.1 (hnone 'R' (by simp) hR)⟩
      | some r =>
        cases hZ : g.num? 'Z' with
        | none =>
          simp only
          exact ⟨fun h => (by cases congrArg Prod.snd h), fun h => absurd h.1 (hnone 'Z' (by simp) hZ)⟩
        | some z =>
          cases hX : g.num? 'X' with
          | none =>
            simp only
            exact ⟨fun h => (by cases congrArg Prod.snd h), fun h => absurd h.1 (hnone 'X' (by simp) hX)⟩
          | some dx =>
            cases hY : g.num? 'Y' with
            | none =>
              simp only
              exact ⟨fun h => (by cases congrArg Prod.snd h), fun h => absurd h.1 (hnone 'Y' (by simp) hY)⟩
            | some dy =>
              have gx : given g .X = dx := by show (g.num? 'X').getD 0 = dx; rw [hX]; rfl
              have gy : given g .Y = dy := by show (g.num? 'Y').getD 0 = dy; rw [hY]; rfl
              have := key (x + dx) (y + dy) (x + dx) (y + dy) ⟨by simp [hR], by simp [hZ], by simp [hX], by simp [hY]⟩
                (fun i => by rw [← gx]; exact hpos x .X i) (fun i => by rw [← gy]; exact hpos y .Y i)
                (by simp [holeAt, gx]) (by simp [holeAt, gy])
              simp only [retractLevel, bottomLevel, hR, hZ, if_true, Option.getD_some] at this ⊢
              exact this
    | false =>
      rw [holes]
      simp only [Bool.false_eq_true, if_false, get_Z start hz]
      cases hR : g.num? 'R' with
      | none =>
        simp only
        exact ⟨fun h => (by cases congrArg Prod.snd h), fun h => absurd h.1 (hnone 'R' (by simp) hR)⟩
      | some r =>
        cases hZ : g.num? 'Z' with
        | none =>
          simp only
          exact ⟨fun h => (by cases congrArg Prod.snd h), fun h => absurd h.1 (hnone 'Z' (by simp) hZ)⟩
        | some z =>
          simp only
          cases hX : g.num? 'X' with
          | none =>
            refine ⟨fun h => ?_, fun h => absurd h.1 (hnone 'X' (by simp) hX)⟩
            obtain ⟨a, b, h1, -, -⟩ := (andThen_done _ _ _).1 h
            exact absurd h1 (hole_missing _ _ _ _ _ _ _ _ (.inl rfl) a)
          | some dx =>
            cases hY : g.num? 'Y' with
            | none =>
              refine ⟨fun h => ?_, fun h => absurd h.1 (hnone 'Y' (by simp) hY)⟩
              obtain ⟨a, b, h1, -, -⟩ := (andThen_done _ _ _).1 h
              exact absurd h1 (hole_missing _ _ _ _ _ _ _ _ (.inr rfl) a)
            | some dy =>
              have gx : given g .X = dx := by show (g.num? 'X').getD 0 = dx; rw [hX]; rfl
              have gy : given g .Y = dy := by show (g.num? 'Y').getD 0 = dy; rw [hY]; rfl
              have := key dx dy x y ⟨by simp [hR], by simp [hZ], by simp [hX], by simp [hY]⟩
                (fun i => by simp [holeAt]) (fun i => by simp [holeAt])
                (by simp [holeAt, gx]) (by simp [holeAt, gy])
              simp only [retractLevel, bottomLevel, hR, hZ, Bool.false_eq_true, if_false, Option.getD_some] at this ⊢
              exact this

end Pygcode
