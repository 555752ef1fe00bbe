import Verif.Lemmas.Print

/-! Helper lemmas: the `%g` threshold and the printing error. -/

namespace Pygcode
open Spec

theorem round_lt_iff_even {x : ℚ} {n : ℤ} (hn : n % 2 = 0) :
    roundHalfEven x < n ↔ x < n - 1 / 2 := by
  have h := abs_le.1 (roundHalfEven_err x)
  constructor
  · intro hlt
    have h1 : (roundHalfEven x : ℚ) + 1 ≤ n := by exact_mod_cast hlt
    have hle : x ≤ n - 1 / 2 := by linarith [h.2]
    rcases hle.lt_or_eq with h2 | h2
    · exact h2
    · exfalso
      have : roundHalfEven x = n := roundHalfEven_unique (.inr ⟨by
        rw [h2, abs_of_neg (by linarith)]; ring, hn⟩)
      omega
  · intro hlt
    have : (roundHalfEven x : ℚ) < n := by linarith [h.1]
    exact_mod_cast this

theorem sig6_exp_lt6 {a : ℚ} (ha : 0 < a) : (sig6 a).2 < 6 ↔ a < 999999.5 := by
  obtain ⟨b1, b2⟩ := log_bounds ha
  obtain ⟨-, -, -, h4, h5⟩ := sig6_spec ha
  have hr := (round_scaled_bounds ha).2
  by_cases h5' : Int.log 10 a = 5
  · rw [h5'] at h4 h5 hr
    simp only [sub_self, zpow_zero, div_one] at h5 hr
    have := round_lt_iff_even (x := a) (n := 10 ^ 6) (by norm_num)
    push_cast at this
    constructor
    · intro hlt
      have hne : roundHalfEven a ≠ 10 ^ 6 := by intro h; have := h5.2 h; omega
      have := this.1 (by omega)
      norm_num at this ⊢; linarith
    · intro hlt
      have h1 := this.2 (by norm_num at hlt ⊢; linarith)
      have hne : (sig6 a).2 ≠ 5 + 1 := by intro h; have := h5.1 h; omega
      omega
  · rcases lt_or_gt_of_ne h5' with hlt | hgt
    · constructor
      · intro _
        have : a < 10 ^ (5 : ℤ) := lt_of_lt_of_le b2 (zpow_le_zpow_right₀ (by norm_num) (by omega))
        norm_num at this ⊢; linarith
      · intro _; omega
    · constructor
      · intro h; omega
      · intro h
        have : (10 : ℚ) ^ (6 : ℤ) ≤ a := le_trans (zpow_le_zpow_right₀ (by norm_num) (by omega)) b1
        norm_num at this h; linarith

theorem sig6_exp_ge {a : ℚ} (ha : 1 / 1000 ≤ a) : -4 ≤ (sig6 a).2 := by
  have h0 : 0 < a := lt_of_lt_of_le (by norm_num) ha
  obtain ⟨b1, b2⟩ := log_bounds h0
  obtain ⟨-, -, -, h4, -⟩ := sig6_spec h0
  have : (10 : ℚ) ^ (-3 : ℤ) < 10 ^ (Int.log 10 a + 1) := lt_of_le_of_lt (by norm_num at ha ⊢; exact ha) b2
  rw [zpow_lt_zpow_iff_right₀ (by norm_num)] at this
  omega

/-- Number that `fmtG` shows for `r` in fixed notation. -/
def shown (r : ℚ) : ℚ :=
  if r = 0 then 0
  else if r < 0 then -(((sig6 (-r)).1 : ℚ) * 10 ^ ((sig6 (-r)).2 - 5))
  else ((sig6 r).1 : ℚ) * 10 ^ ((sig6 r).2 - 5)

theorem shown_neg (r : ℚ) : shown (-r) = -shown r := by
  unfold shown
  rcases lt_trichotomy r 0 with h | h | h
  · have h1 : -r ≠ 0 := by simp [h.ne]
    have h2 : ¬ -r < 0 := by linarith
    simp [h.ne, h, h2]
  · simp [h]
  · have h1 : -r ≠ 0 := by simp [h.ne']
    have h2 : -r < 0 := by linarith
    simp [h.ne', h.not_gt, h2]

theorem shown_pos_exact {n : ℕ} {d : ℕ} (hn6 : n < 10 ^ 6) : shown ((n : ℚ) / 10 ^ d) = n / 10 ^ d := by
  rcases Nat.eq_zero_or_pos n with rfl | hn
  · simp [shown]
  · have hpos : 0 < (n : ℚ) / 10 ^ d := by
      have : (0 : ℚ) < n := by exact_mod_cast hn
      positivity
    unfold shown
    rw [if_neg hpos.ne', if_neg hpos.not_gt]
    exact (sig6_exact hn hn6).1

theorem fmtG_fixed {r : ℚ} (h : r = 0 ∨ (1 / 1000 ≤ |r| ∧ |r| < 999999.5)) :
    ∃ neg : Bool, ∃ i f, i ≠ [] ∧ Digits i ∧ Digits f ∧
      fmtG r = (if neg then ['-'] else []) ++ i ++ (if f = [] then [] else '.' :: f) ∧
      shown r = (if neg then -1 else 1) * (digitsVal i + (digitsVal f : ℚ) / 10 ^ f.length) := by
  have main : ∀ a : ℚ, 1 / 1000 ≤ a → a < 999999.5 → ∃ i f, NumStr (fmtGPos a) i f
      (((sig6 a).1 : ℚ) * 10 ^ ((sig6 a).2 - 5)) := fun a h1 h2 =>
    fmtGPos_fixed ⟨sig6_exp_ge h1, (sig6_exp_lt6 (lt_of_lt_of_le (by norm_num) h1)).2 h2⟩
  rcases h with rfl | ⟨h1, h2⟩
  · refine ⟨false, ['0'], [], by simp, ?_, digits_nil, by simp [fmtG], by simp [shown, digitsVal]⟩
    intro c hc; simp at hc; subst hc; decide
  · rcases lt_trichotomy r 0 with hr | hr | hr
    · rw [abs_of_neg hr] at h1 h2
      obtain ⟨i, f, hs⟩ := main _ h1 h2
      refine ⟨true, i, f, hs.ine, hs.di, hs.df, ?_, ?_⟩
      · unfold fmtG; rw [if_neg hr.ne, if_pos hr, hs.eq]; simp
      · unfold shown; rw [if_neg hr.ne, if_pos hr, hs.val]; simp
    · subst hr; norm_num at h1
    · rw [abs_of_pos hr] at h1 h2
      obtain ⟨i, f, hs⟩ := main _ h1 h2
      refine ⟨false, i, f, hs.ine, hs.di, hs.df, ?_, ?_⟩
      · unfold fmtG; rw [if_neg hr.ne', if_neg hr.not_gt, hs.eq]; simp
      · unfold shown; rw [if_neg hr.ne', if_neg hr.not_gt, hs.val]; simp

theorem fmtG_sci {r : ℚ} (h : 999999.5 ≤ |r|) :
    ∃ neg : Bool, ∃ i f x, i ≠ [] ∧ Digits i ∧ Digits f ∧
      fmtG r = (if neg then ['-'] else []) ++ i ++ (if f = [] then [] else '.' :: f) ++ 'e' :: '+' :: x := by
  have main : ∀ a : ℚ, 999999.5 ≤ a → ∃ i f x, i ≠ [] ∧ Digits i ∧ Digits f ∧
      fmtGPos a = i ++ (if f = [] then [] else '.' :: f) ++ 'e' :: '+' :: x := by
    intro a ha
    have h0 : 0 < a := lt_of_lt_of_le (by norm_num) ha
    have he : ¬ (sig6 a).2 < 6 := fun h => absurd ((sig6_exp_lt6 h0).1 h) (not_lt.2 ha)
    obtain ⟨i, f, hs⟩ := fixedStr_spec (sig6 a).1 5
    refine ⟨i, f, padDigits 2 (sig6 a).2.natAbs, hs.ine, hs.di, hs.df, ?_⟩
    unfold fmtGPos
    have h1 : ¬ (-4 ≤ (sig6 a).2 ∧ (sig6 a).2 < 6) := fun h => he h.2
    have h2 : ¬ (sig6 a).2 < 0 := by omega
    simp only [h1, if_false, expStr, h2]
    rw [hs.eq]
  rcases lt_trichotomy r 0 with hr | hr | hr
  · rw [abs_of_neg hr] at h
    obtain ⟨i, f, x, h1, h2, h3, h4⟩ := main _ h
    refine ⟨true, i, f, x, h1, h2, h3, ?_⟩
    unfold fmtG; rw [if_neg hr.ne, if_pos hr, h4]; simp
  · subst hr; norm_num at h
  · rw [abs_of_pos hr] at h
    obtain ⟨i, f, x, h1, h2, h3, h4⟩ := main _ h
    refine ⟨false, i, f, x, h1, h2, h3, ?_⟩
    unfold fmtG; rw [if_neg hr.ne', if_neg hr.not_gt, h4]; simp

theorem round3_abs (v : ℚ) : |roundPlaces 3 v| = roundPlaces 3 |v| := by
  rcases le_or_gt 0 v with h | h
  · rw [abs_of_nonneg h, abs_of_nonneg]
    unfold roundPlaces
    have := roundHalfEven_mono (show (0 : ℚ) ≤ v * 10 ^ 3 by positivity)
    have h0 : roundHalfEven (0 : ℚ) = 0 := by simpa using roundHalfEven_int (K := ℚ) 0
    rw [h0] at this
    have : (0 : ℚ) ≤ roundHalfEven (v * 10 ^ 3) := by exact_mod_cast this
    positivity
  · have h' : 0 ≤ -v := by linarith
    rw [abs_of_neg h, roundPlaces_neg, abs_of_nonpos]
    have hm : 0 ≤ roundPlaces 3 (-v) := by
      unfold roundPlaces
      have := roundHalfEven_mono (show (0 : ℚ) ≤ -v * 10 ^ 3 by positivity)
      have h0 : roundHalfEven (0 : ℚ) = 0 := by simpa using roundHalfEven_int (K := ℚ) 0
      rw [h0] at this
      have : (0 : ℚ) ≤ roundHalfEven (-v * 10 ^ 3) := by exact_mod_cast this
      positivity
    rw [roundPlaces_neg] at hm
    linarith

theorem round3_threshold (v : ℚ) : |roundPlaces 3 v| < 999999.5 ↔ |v| < 999999.4995 := by
  rw [round3_abs]
  have := round_lt_iff_even (x := |v| * 10 ^ 3) (n := 999999500) (by norm_num)
  unfold roundPlaces
  have h1 : (roundHalfEven (|v| * 10 ^ 3) : ℚ) / 10 ^ 3 < 999999.5 ↔
      roundHalfEven (|v| * 10 ^ 3) < 999999500 := by
    rw [div_lt_iff₀ (by norm_num)]
    norm_num
    norm_cast
  rw [h1, this]
  constructor <;> intro h <;> (norm_num at h ⊢; linarith)

theorem round3_small (v : ℚ) : roundPlaces 3 v = 0 ∨ 1 / 1000 ≤ |roundPlaces 3 v| := by
  unfold roundPlaces
  by_cases h : roundHalfEven (v * 10 ^ 3) = 0
  · left; rw [h]; simp
  · right
    have h1 : (1 : ℤ) ≤ |roundHalfEven (v * 10 ^ 3)| := Int.one_le_abs h
    have h2 : (1 : ℚ) ≤ |(roundHalfEven (v * 10 ^ 3) : ℚ)| := by exact_mod_cast h1
    rw [abs_div, abs_of_pos (show (0 : ℚ) < 10 ^ 3 by norm_num)]
    rw [div_le_div_iff₀ (by norm_num) (by norm_num)]
    linarith

/-- Error of what is shown after rounding, for non-negative values. -/
theorem shown_err {v : ℚ} {e : ℤ} (h0 : 0 ≤ v) (hv : v < 999999.4995)
    (he1 : (10 : ℚ) ^ e ≤ v) (he2 : v < 10 ^ (e + 1)) :
    |shown (roundPlaces 3 v) - v| ≤ 0.0005 + 0.5 * 10 ^ (e - 5) := by
  have hr := roundPlaces_err 3 v
  have hpe : (0 : ℚ) < 10 ^ (e - 5) := by positivity
  have hexact : shown (roundPlaces 3 v) = roundPlaces 3 v →
      |shown (roundPlaces 3 v) - v| ≤ 0.0005 + 0.5 * 10 ^ (e - 5) := by
    intro h; rw [h, abs_sub_comm]; norm_num at hr ⊢; linarith
  have hr0 : 0 ≤ roundPlaces 3 v := by
    have := round3_abs v; rw [abs_of_nonneg h0] at this; rw [← this]; exact abs_nonneg _
  obtain ⟨k, hk⟩ : ∃ k : ℕ, roundPlaces 3 v = k / 10 ^ 3 := by
    unfold roundPlaces at hr0 ⊢
    have : (0 : ℚ) ≤ roundHalfEven (v * 10 ^ 3) := by
      by_contra hn
      push Not at hn
      have := div_neg_of_neg_of_pos hn (show (0 : ℚ) < 10 ^ 3 by norm_num)
      linarith
    have h1 : 0 ≤ roundHalfEven (v * 10 ^ 3) := by exact_mod_cast this
    refine ⟨(roundHalfEven (v * 10 ^ 3)).toNat, ?_⟩
    have h2 : (((roundHalfEven (v * 10 ^ 3)).toNat : ℤ) : ℚ) = (roundHalfEven (v * 10 ^ 3) : ℚ) := by
      rw [Int.toNat_of_nonneg h1]
    rw [← h2, Int.cast_natCast]
  by_cases hk6 : k < 10 ^ 6
  · apply hexact; rw [hk]; exact shown_pos_exact hk6
  · -- the rounded value is at least 1000
    have hmono : ∀ m : ℕ, (m : ℚ) ≤ v → (m : ℚ) ≤ roundPlaces 3 v := by
      intro m hm
      have h1 := roundHalfEven_mono (show ((m * 1000 : ℤ) : ℚ) ≤ v * 10 ^ 3 by push_cast; linarith)
      rw [roundHalfEven_int] at h1
      unfold roundPlaces
      rw [le_div_iff₀ (by norm_num)]
      have : ((m * 1000 : ℤ) : ℚ) ≤ roundHalfEven (v * 10 ^ 3) := by exact_mod_cast h1
      push_cast at this; linarith
    have hmono' : ∀ m : ℕ, v ≤ (m : ℚ) → roundPlaces 3 v ≤ m := by
      intro m hm
      have h1 := roundHalfEven_mono (show v * 10 ^ 3 ≤ ((m * 1000 : ℤ) : ℚ) by push_cast; linarith)
      rw [roundHalfEven_int] at h1
      unfold roundPlaces
      rw [div_le_iff₀ (by norm_num)]
      have : (roundHalfEven (v * 10 ^ 3) : ℚ) ≤ ((m * 1000 : ℤ) : ℚ) := by exact_mod_cast h1
      push_cast at this; linarith
    have hr1000 : (1000 : ℚ) ≤ roundPlaces 3 v := by
      have : (10 ^ 6 : ℚ) ≤ k := by exact_mod_cast not_lt.1 hk6
      rw [hk, le_div_iff₀ (by norm_num)]; norm_num at this ⊢; linarith
    have hrlt : roundPlaces 3 v < 999999.5 := by
      have := (round3_threshold v).2 (by rw [abs_of_nonneg h0]; exact hv)
      rwa [abs_of_nonneg hr0] at this
    have hnat : ∀ m : ℕ, m < 10 ^ 6 → shown (m : ℚ) = m := by
      intro m hm
      have := shown_pos_exact (d := 0) hm
      simpa using this
    rcases lt_or_ge v 1000 with hlt | hge
    · have hle := hmono' 1000 (by push_cast; linarith)
      push_cast at hle
      have heq : roundPlaces 3 v = 1000 := le_antisymm hle hr1000
      apply hexact; rw [heq]; exact_mod_cast hnat 1000 (by norm_num)
    · have he3 : 3 ≤ e := by
        have h1 : (10 : ℚ) ^ (3 : ℤ) < 10 ^ (e + 1) := lt_of_le_of_lt (by norm_num; exact hge) he2
        rw [zpow_lt_zpow_iff_right₀ (by norm_num)] at h1; omega
      have he5 : e ≤ 5 := by
        have h1 : (10 : ℚ) ^ e < 10 ^ (6 : ℤ) := lt_of_le_of_lt he1 (by norm_num at hv ⊢; linarith)
        rw [zpow_lt_zpow_iff_right₀ (by norm_num)] at h1; omega
      obtain ⟨j, hj⟩ : ∃ j : ℕ, (j : ℤ) = e := ⟨e.toNat, Int.toNat_of_nonneg (by omega)⟩
      have hlo : (10 : ℚ) ^ e ≤ roundPlaces 3 v := by
        have := hmono (10 ^ j) (by push_cast; rw [← zpow_natCast, hj]; exact he1)
        push_cast at this; rwa [← zpow_natCast, hj] at this
      have hhi : roundPlaces 3 v ≤ 10 ^ (e + 1) := by
        have := hmono' (10 ^ (j + 1)) (by
          push_cast; rw [← zpow_natCast]; push_cast; rw [hj]; exact he2.le)
        push_cast at this; rw [← zpow_natCast] at this; push_cast at this; rwa [hj] at this
      rcases hhi.lt_or_eq with hlt | heq
      · have hlog : Int.log 10 (roundPlaces 3 v) = e := log_unique hlo hlt
        have hpos : 0 < roundPlaces 3 v := by linarith
        have herr := sig6_err hpos
        rw [hlog] at herr
        have hsh : shown (roundPlaces 3 v) =
            ((sig6 (roundPlaces 3 v)).1 : ℚ) * 10 ^ ((sig6 (roundPlaces 3 v)).2 - 5) := by
          unfold shown; rw [if_neg hpos.ne', if_neg hpos.not_gt]
        rw [← hsh] at herr
        calc |shown (roundPlaces 3 v) - v|
            = |(shown (roundPlaces 3 v) - roundPlaces 3 v) - (v - roundPlaces 3 v)| := by
              congr 1; ring
          _ ≤ |shown (roundPlaces 3 v) - roundPlaces 3 v| + |v - roundPlaces 3 v| := abs_sub _ _
          _ ≤ 0.0005 + 0.5 * 10 ^ (e - 5) := by norm_num at hr herr ⊢; linarith
      · have hj5 : j + 1 < 6 := by
          have h1 : (10 : ℚ) ^ (e + 1) < 10 ^ (6 : ℤ) := by
            rw [← heq]; norm_num at hrlt ⊢; linarith
          rw [zpow_lt_zpow_iff_right₀ (by norm_num)] at h1; omega
        apply hexact
        have : roundPlaces 3 v = ((10 ^ (j + 1) : ℕ) : ℚ) := by
          rw [heq, ← hj]; push_cast; rw [← zpow_natCast]; push_cast; rfl
        rw [this]
        exact hnat _ (Nat.pow_lt_pow_right (by norm_num) hj5)

end Pygcode
