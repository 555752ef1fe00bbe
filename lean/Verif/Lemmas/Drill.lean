import Verif.Model.Transform
import Mathlib.Tactic.Linarith
import Mathlib.Algebra.Order.Archimedean.Basic
import Mathlib.Data.Rat.Floor
import Mathlib.Data.List.Chain

/-!
# The drilling loop of simplify_canned_cycle
-/

namespace Pygcode

/-- Depths of the feed moves. -/
def feedZs (gs : List GCode) : List ℚ :=
  gs.filterMap (fun g => if g.cls = .linearMove then g.num? 'Z' else none)

/-- A move along Z only. -/
def Vertical (g : GCode) : Prop := ∃ z, g = rapidZ z ∨ g = feedZ z

theorem feedZs_append (a b : List GCode) : feedZs (a ++ b) = feedZs a ++ feedZs b := List.filterMap_append ..

theorem feedZs_rapidZ (z : ℚ) (l : List GCode) : feedZs (rapidZ z :: l) = feedZs l := rfl
theorem feedZs_rapidXY (x y : ℚ) (l : List GCode) : feedZs (rapidXY x y :: l) = feedZs l := rfl
theorem feedZs_feedZ (z : ℚ) (l : List GCode) : feedZs (feedZ z :: l) = z :: feedZs l := rfl
theorem feedZs_nil : feedZs [] = [] := rfl

/-- The depth after a pass from `cur`. -/
def deeper (bottom delta cur : ℚ) : ℚ := if cur + delta < bottom then bottom else cur + delta

theorem deeper_ge (bottom delta cur : ℚ) : bottom ≤ deeper bottom delta cur := by
  unfold deeper; split_ifs with h
  · exact le_refl _
  · exact not_lt.1 h

/-- The rapid move to just above what has been drilled. -/
def approach (retract cur : ℚ) : List GCode := if cur + 1 / 10 < retract then [rapidZ (cur + 1 / 10)] else []

/-- The rapid move back after a pass that has not reached the bottom. -/
def backUp (chip : Bool) (retract z : ℚ) : GCode := if chip then rapidZ (z + 1 / 2) else rapidZ retract

/-- One pass of the loop. -/
theorem drillLoop_succ (chip : Bool) (retract bottom delta : ℚ) (n : ℕ) (cur : ℚ) :
    drillLoop chip retract bottom delta (n + 1) cur cur =
      if deeper bottom delta cur ≤ bottom then
        (approach retract cur ++ [feedZ bottom], .done)
      else Gen.pre (approach retract cur ++
          [feedZ (cur + delta), backUp chip retract (cur + delta)])
        (drillLoop chip retract bottom delta n (cur + delta) (cur + delta)) := by
  rw [drillLoop]
  have hd : (if cur + delta < bottom then bottom else cur + delta) = deeper bottom delta cur := rfl
  simp only [hd]
  by_cases h : deeper bottom delta cur ≤ bottom
  · rw [if_pos h, if_pos h, le_antisymm h (deeper_ge _ _ _)]; rfl
  · rw [if_neg h, if_neg h]
    have : deeper bottom delta cur = cur + delta := by
      unfold deeper at h ⊢
      by_cases h' : cur + delta < bottom
      · rw [if_pos h'] at h; exact absurd (le_refl _) h
      · rw [if_neg h']
    rw [this]
    simp [Gen.pre, approach, backUp]

theorem deeper_gt {bottom delta cur : ℚ} (h : ¬ deeper bottom delta cur ≤ bottom) : bottom < cur + delta := by
  unfold deeper at h
  split_ifs at h with h'
  · exact absurd (le_refl _) h
  · exact not_le.1 h

theorem deeper_le {bottom delta cur : ℚ} (h : deeper bottom delta cur ≤ bottom) : cur + delta ≤ bottom := by
  unfold deeper at h
  split_ifs at h with h'
  · exact h'.le
  · exact h

theorem drill_vertical (chip : Bool) (retract bottom delta : ℚ) (n : ℕ) (cur : ℚ) :
    ∀ g ∈ (drillLoop chip retract bottom delta n cur cur).1, Vertical g := by
  induction n generalizing cur with
  | zero => simp [drillLoop]
  | succ n ih =>
    rw [drillLoop_succ]
    have hpre : ∀ g ∈ approach retract cur, Vertical g := by
      intro g hg
      unfold approach at hg
      split_ifs at hg
      · rw [List.mem_singleton] at hg; exact ⟨_, .inl hg⟩
      · cases hg
    by_cases h : deeper bottom delta cur ≤ bottom
    · rw [if_pos h]
      intro g hg
      rcases List.mem_append.1 hg with hg | hg
      · exact hpre g hg
      · rw [List.mem_singleton] at hg; exact ⟨_, .inr hg⟩
    · rw [if_neg h]
      intro g hg
      rcases List.mem_append.1 hg with hg | hg
      · rcases List.mem_append.1 hg with hg | hg
        · exact hpre g hg
        · rcases List.mem_cons.1 hg with hg | hg
          · exact ⟨_, .inr hg⟩
          · rw [List.mem_singleton] at hg
            cases chip <;> exact ⟨_, .inl hg⟩
      · exact ih _ g hg

/-- Without progress the loop does not end. -/
theorem drill_stuck (chip : Bool) (retract bottom delta : ℚ) (hd : 0 ≤ delta) (n : ℕ) (cur : ℚ)
    (h : bottom < cur) : (drillLoop chip retract bottom delta n cur cur).2 = .running := by
  induction n generalizing cur with
  | zero => rfl
  | succ n ih =>
    rw [drillLoop_succ, if_neg]
    · exact ih _ (by linarith)
    · intro h'
      have := deeper_le h'
      linarith

/-- The loop never raises. -/
theorem drill_status (chip : Bool) (retract bottom delta : ℚ) (n : ℕ) (cur : ℚ) :
    (drillLoop chip retract bottom delta n cur cur).2 = .done ∨
    (drillLoop chip retract bottom delta n cur cur).2 = .running := by
  induction n generalizing cur with
  | zero => exact .inr rfl
  | succ n ih =>
    rw [drillLoop_succ]
    split_ifs
    · exact .inl rfl
    · exact ih _

/-- Once it ended, more allowed iterations change nothing. -/
theorem drill_more (chip : Bool) (retract bottom delta : ℚ) (n : ℕ) (cur : ℚ)
    (h : (drillLoop chip retract bottom delta n cur cur).2 = .done) (k : ℕ) :
    drillLoop chip retract bottom delta (n + k) cur cur = drillLoop chip retract bottom delta n cur cur := by
  induction n generalizing cur with
  | zero => cases h
  | succ n ih =>
    rw [show n + 1 + k = (n + k) + 1 by ring, drillLoop_succ, drillLoop_succ]
    rw [drillLoop_succ] at h
    split_ifs with hc
    · rfl
    · rw [if_neg hc] at h
      rw [ih _ h]

/-- With progress it ends, within as many passes as needed to make the depth. -/
theorem drill_ends (chip : Bool) (retract bottom delta : ℚ) (n : ℕ) (cur : ℚ)
    (hn : cur - bottom ≤ (n + 1 : ℕ) * -delta) :
    (drillLoop chip retract bottom delta (n + 1) cur cur).2 = .done := by
  induction n generalizing cur with
  | zero =>
    rw [drillLoop_succ, if_pos]
    unfold deeper
    split_ifs with h
    · exact le_refl _
    · push_cast at hn; linarith
  | succ n ih =>
    rw [drillLoop_succ]
    split_ifs with hc
    · rfl
    · apply ih
      push_cast at hn ⊢
      linarith

/-- Depths of the feed moves when the loop has ended: each deeper than the one before, by at most
the given amount, down to the bottom. -/
theorem drill_feeds (chip : Bool) (retract bottom delta : ℚ) (n : ℕ) (cur : ℚ) (out : List GCode)
    (h : drillLoop chip retract bottom delta n cur cur = (out, .done)) (hb : bottom ≤ cur) :
    (cur = bottom → delta ≤ 0 → feedZs out = [bottom]) ∧
    (bottom < cur → (feedZs out).getLast? = some bottom ∧
      List.IsChain (fun a b => b < a ∧ a - b ≤ -delta) (cur :: feedZs out)) := by
  induction n generalizing cur out with
  | zero => simp [drillLoop] at h
  | succ n ih =>
    have hpre : feedZs (approach retract cur) = [] := by
      unfold approach; split_ifs <;> rfl
    have hfull := h
    rw [drillLoop_succ] at h
    by_cases hc : deeper bottom delta cur ≤ bottom
    · rw [if_pos hc, Prod.mk.injEq] at h
      obtain ⟨rfl, -⟩ := h
      have hf : feedZs (approach retract cur ++ [feedZ bottom]) = [bottom] := by
        rw [feedZs_append, hpre]; rfl
      rw [hf]
      refine ⟨fun _ _ => rfl, fun hlt => ⟨rfl, ?_⟩⟩
      rw [List.isChain_cons_cons]
      have := deeper_le hc
      exact ⟨⟨hlt, by linarith⟩, List.isChain_singleton _⟩
    · rw [if_neg hc] at h
      have hgt := deeper_gt hc
      refine ⟨fun he hd => by linarith, fun hlt => ?_⟩
      cases hr : drillLoop chip retract bottom delta n (cur + delta) (cur + delta) with
      | mk out' s' =>
        rw [hr] at h
        simp only [Gen.pre, Prod.mk.injEq] at h
        obtain ⟨rfl, rfl⟩ := h
        have hdelta : delta < 0 := by
          by_contra hnn
          have := drill_stuck chip retract bottom delta (not_lt.1 hnn) (n + 1) cur hlt
          rw [hfull] at this
          cases this
        obtain ⟨h1, h2⟩ := (ih (cur + delta) out' hr hgt.le).2 hgt
        have hf : feedZs ((approach retract cur ++
            [feedZ (cur + delta), backUp chip retract (cur + delta)]) ++ out') =
            (cur + delta) :: feedZs out' := by
          rw [feedZs_append, feedZs_append, hpre]
          cases chip <;> rfl
        rw [hf]
        refine ⟨?_, ?_⟩
        · cases ho : feedZs out' with
          | nil => rw [ho] at h1; cases h1
          | cons d ds => rw [ho] at h1; rw [List.getLast?_cons_cons]; exact h1
        · rw [List.isChain_cons_cons]
          exact ⟨⟨by linarith, by linarith⟩, h2⟩

/-- The number of feed moves. -/
theorem drill_passes (chip : Bool) (retract bottom delta : ℚ) (n : ℕ) (cur : ℚ) (out : List GCode)
    (h : drillLoop chip retract bottom delta n cur cur = (out, .done)) (hb : bottom < cur) :
    ((feedZs out).length : ℤ) = ⌈(cur - bottom) / -delta⌉ := by
  induction n generalizing cur out with
  | zero => simp [drillLoop] at h
  | succ n ih =>
    have hdelta : delta < 0 := by
      by_contra hnn
      have := drill_stuck chip retract bottom delta (not_lt.1 hnn) (n + 1) cur hb
      rw [h] at this
      cases this
    have hpre : feedZs (approach retract cur) = [] := by
      unfold approach; split_ifs <;> rfl
    rw [drillLoop_succ] at h
    by_cases hc : deeper bottom delta cur ≤ bottom
    · rw [if_pos hc, Prod.mk.injEq] at h
      obtain ⟨rfl, -⟩ := h
      have hf : feedZs (approach retract cur ++ [feedZ bottom]) = [bottom] := by
        rw [feedZs_append, hpre]; rfl
      rw [hf]
      have h1 := deeper_le hc
      symm
      rw [Int.ceil_eq_iff]
      constructor
      · simp only [List.length_cons, List.length_nil, zero_add, Nat.cast_one, Int.cast_one, sub_self]
        exact div_pos (by linarith) (by linarith)
      · simp only [List.length_cons, List.length_nil, zero_add, Nat.cast_one, Int.cast_one]
        rw [div_le_one (by linarith)]
        linarith
    · rw [if_neg hc] at h
      have hgt := deeper_gt hc
      cases hr : drillLoop chip retract bottom delta n (cur + delta) (cur + delta) with
      | mk out' s' =>
        rw [hr] at h
        simp only [Gen.pre, Prod.mk.injEq] at h
        obtain ⟨rfl, rfl⟩ := h
        have := ih (cur + delta) out' hr hgt
        have hf : feedZs ((approach retract cur ++
            [feedZ (cur + delta), backUp chip retract (cur + delta)]) ++ out') =
            (cur + delta) :: feedZs out' := by
          rw [feedZs_append, feedZs_append, hpre]
          cases chip <;> rfl
        rw [hf, List.length_cons, Nat.cast_add, this]
        have he : (cur - bottom) / -delta = (cur + delta - bottom) / -delta + 1 := by
          have hne : -delta ≠ 0 := by linarith
          rw [div_add_one hne]
          congr 1
          ring
        rw [he, Int.ceil_add_one]
        rfl

end Pygcode
