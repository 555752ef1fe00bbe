import Verif.Model.Float
import Verif.Props.Words
import Mathlib.Tactic.Positivity
import Mathlib.Tactic.LinearCombination

/-! # C71: binary floating point does not show in programs -/

namespace Pygcode.Props
open Pygcode Spec

/-! ## The doubles -/

/-- Magnitudes of finite binary64 numbers, by their definition: 53 significant bits, exponent at least
-1074 (the largest exponent is left out, as in the model). -/
def IsDouble (x : ℚ) : Prop := ∃ m : ℕ, ∃ e : ℤ, m < 2 ^ 53 ∧ -1074 ≤ e ∧ x = m * 2 ^ e

theorem ulp_pos (a : ℚ) : 0 < ulp a := by unfold ulp; positivity

theorem nearest_err_ulp (a : ℚ) : |a - nearest a| ≤ ulp a / 2 := by
  have h := roundHalfEven_err (a / ulp a)
  have hp := ulp_pos a
  have e : a - nearest a = (a / ulp a - roundHalfEven (a / ulp a)) * ulp a := by
    unfold nearest; field_simp
  rw [e, abs_mul, abs_of_pos hp]
  nlinarith

theorem log2_bounds {a : ℚ} (ha : 0 < a) :
    (2 : ℚ) ^ Int.log 2 a ≤ a ∧ a < 2 ^ (Int.log 2 a + 1) := by
  have h1 := Int.zpow_log_le_self (b := 2) (r := a) (by decide) ha
  have h2 := Int.lt_zpow_succ_log_self (b := 2) (by decide) a
  exact_mod_cast And.intro h1 h2

/-- Relative error of rounding in the normal range. -/
theorem nearest_err {a : ℚ} (ha : (2 : ℚ) ^ (-1022 : ℤ) ≤ a) : |a - nearest a| ≤ a / 2 ^ 53 := by
  have h0 : 0 < a := lt_of_lt_of_le (by positivity) ha
  obtain ⟨b1, b2⟩ := log2_bounds h0
  have hl : -1022 ≤ Int.log 2 a := by
    have hlt : (2 : ℚ) ^ (-1022 : ℤ) < 2 ^ (Int.log 2 a + 1) := lt_of_le_of_lt ha b2
    rw [zpow_lt_zpow_iff_right₀ (by norm_num)] at hlt
    omega
  refine (nearest_err_ulp a).trans ?_
  have hu : ulp a = 2 ^ Int.log 2 a / 2 ^ 52 := by
    unfold ulp
    rw [max_eq_left hl, zpow_sub₀ (by norm_num)]; norm_num
  rw [hu]
  have : (2 : ℚ) ^ 53 = 2 * 2 ^ 52 := by norm_num
  rw [this, div_div, mul_comm]
  gcongr

theorem nearest_nonneg {a : ℚ} (ha : 0 ≤ a) : 0 ≤ nearest a := by
  have hp := ulp_pos a
  have h : 0 ≤ roundHalfEven (a / ulp a) := by
    have := roundHalfEven_mono (show (0 : ℚ) ≤ a / ulp a by positivity)
    have hz : roundHalfEven (0 : ℚ) = 0 := by simpa using roundHalfEven_int (K := ℚ) 0
    rwa [hz] at this
  have h' : (0 : ℚ) ≤ roundHalfEven (a / ulp a) := by exact_mod_cast h
  unfold nearest; positivity

theorem nearest_zero : nearest 0 = 0 := by
  unfold nearest
  have hz : roundHalfEven (0 : ℚ) = 0 := by simpa using roundHalfEven_int (K := ℚ) 0
  rw [zero_div, hz]; simp

/-- `nearest` gives a double. -/
theorem nearest_isDouble {a : ℚ} (ha : 0 ≤ a) : IsDouble (nearest a) := by
  rcases ha.eq_or_lt with rfl | ha
  · exact ⟨0, 0, by norm_num, by norm_num, by rw [nearest_zero]; simp⟩
  obtain ⟨b1, b2⟩ := log2_bounds ha
  set E := max (Int.log 2 a) (-1022) - 52 with hE
  have hu : ulp a = 2 ^ E := rfl
  have hle : a / ulp a ≤ ((2 ^ 53 : ℤ) : ℚ) := by
    rw [div_le_iff₀ (ulp_pos a), hu]
    refine b2.le.trans ?_
    rw [show (((2 ^ 53 : ℤ) : ℤ) : ℚ) = 2 ^ (53 : ℤ) by norm_num, ← zpow_add₀ (by norm_num)]
    apply zpow_le_zpow_right₀ (by norm_num)
    have := le_max_left (Int.log 2 a) (-1022)
    omega
  have hr := roundHalfEven_mono hle
  rw [roundHalfEven_int] at hr
  have h0 : 0 ≤ roundHalfEven (a / ulp a) := by
    have := roundHalfEven_mono (show (0 : ℚ) ≤ a / ulp a by have := ulp_pos a; positivity)
    have hz : roundHalfEven (0 : ℚ) = 0 := by simpa using roundHalfEven_int (K := ℚ) 0
    rwa [hz] at this
  have hE0 : -1074 ≤ E := by
    have := le_max_right (Int.log 2 a) (-1022)
    omega
  obtain ⟨m, hm⟩ := Int.eq_ofNat_of_zero_le h0
  rcases lt_or_eq_of_le hr with h | h
  · refine ⟨m, E, by omega, hE0, ?_⟩
    unfold nearest; rw [hm, hu]; push_cast; rfl
  · refine ⟨1, E + 53, by norm_num, by omega, ?_⟩
    unfold nearest
    rw [h, hu, zpow_add₀ (by norm_num)]
    push_cast; norm_num; ring

/-- No double is closer than `nearest`. -/
theorem nearest_closest {a y : ℚ} (ha : 0 ≤ a) (hy : IsDouble y) : |a - nearest a| ≤ |a - y| := by
  rcases ha.eq_or_lt with rfl | ha
  · rw [nearest_zero]; simp
  obtain ⟨b1, b2⟩ := log2_bounds ha
  set E := max (Int.log 2 a) (-1022) - 52 with hE
  have hu : ulp a = 2 ^ E := rfl
  have hup := ulp_pos a
  -- nearest is the closest multiple of `ulp a`
  have mult : ∀ k : ℤ, |a - nearest a| ≤ |a - k * ulp a| := by
    intro k
    have e1 : a - nearest a = (a / ulp a - roundHalfEven (a / ulp a)) * ulp a := by
      unfold nearest; field_simp
    have e2 : a - k * ulp a = (a / ulp a - k) * ulp a := by field_simp
    rw [e1, e2, abs_mul, abs_mul]
    apply mul_le_mul_of_nonneg_right _ (abs_nonneg _)
    have h1 := roundHalfEven_err (a / ulp a)
    by_cases hk : k = roundHalfEven (a / ulp a)
    · rw [hk]
    · have : (1 : ℚ) ≤ |(roundHalfEven (a / ulp a) : ℚ) - k| := by
        have h : (1 : ℤ) ≤ |roundHalfEven (a / ulp a) - k| :=
          Int.one_le_abs (sub_ne_zero.2 (Ne.symm hk))
        exact_mod_cast h
      have h2 : |(roundHalfEven (a / ulp a) : ℚ) - k| ≤
          |a / ulp a - roundHalfEven (a / ulp a)| + |a / ulp a - k| := by
        have := abs_sub_le (roundHalfEven (a / ulp a) : ℚ) (a / ulp a) k
        rwa [abs_sub_comm (roundHalfEven (a / ulp a) : ℚ) (a / ulp a)] at this
      linarith
  obtain ⟨m, e, hm, he, rfl⟩ := hy
  by_cases hc : E ≤ e
  · -- a multiple of the spacing
    obtain ⟨k, hk⟩ := Int.le.dest hc
    have := mult (m * 2 ^ k)
    rw [hu] at this
    convert this using 3
    push_cast
    rw [mul_assoc]
    congr 1
    rw [← hk, zpow_add₀ (by norm_num), zpow_natCast]; ring
  · -- below the power of two under `a`
    have hlog : -1022 ≤ Int.log 2 a := by
      by_contra hlt
      have : E = -1074 := by rw [hE, max_eq_right (by omega)]; norm_num
      omega
    have hEE : E = Int.log 2 a - 52 := by rw [hE, max_eq_left hlog]
    have hylt : (m : ℚ) * 2 ^ e ≤ 2 ^ Int.log 2 a := by
      have h1 : (m : ℚ) ≤ 2 ^ (53 : ℤ) := by exact_mod_cast hm.le
      calc (m : ℚ) * 2 ^ e ≤ 2 ^ (53 : ℤ) * 2 ^ e := by gcongr
        _ = 2 ^ (53 + e) := by rw [← zpow_add₀ (by norm_num)]
        _ ≤ 2 ^ Int.log 2 a := by apply zpow_le_zpow_right₀ (by norm_num); omega
    have h2 := mult (2 ^ 52)
    have h3 : ((2 ^ 52 : ℤ) : ℚ) * ulp a = 2 ^ Int.log 2 a := by
      rw [hu, hEE, zpow_sub₀ (by norm_num)]; push_cast; norm_num; ring
    rw [h3] at h2
    refine h2.trans ?_
    rw [abs_of_nonneg (by linarith), abs_of_nonneg (by linarith)]
    linarith

/-- Whole numbers below 2^53 are doubles. -/
theorem nearest_nat {n : ℕ} (hn : n < 2 ^ 53) : nearest n = n := by
  have h := nearest_closest (a := n) (y := n) (by positivity) ⟨n, 0, hn, by norm_num, by simp⟩
  rw [sub_self, abs_zero] at h
  have := abs_eq_zero.1 (le_antisymm h (abs_nonneg _))
  linarith

/-! ## Six digits of a double -/

/-- A number close to a six-digit decimal has the same six digits. -/
theorem sig6_near {m : ℕ} {e : ℤ} {y : ℚ} (h5 : 10 ^ 5 ≤ m) (h6 : m < 10 ^ 6)
    (hy : |y - m * 10 ^ (e - 5)| < 10 ^ (e - 5) / 20) : sig6 y = (m, e) := by
  have hp : (0 : ℚ) < 10 ^ (e - 5) := by positivity
  have h5' : (10 : ℚ) ^ 5 ≤ m := by exact_mod_cast h5
  have h6' : (m : ℚ) + 1 ≤ 10 ^ 6 := by exact_mod_cast h6
  obtain ⟨y1, y2⟩ := abs_lt.1 hy
  have pe : (10 : ℚ) ^ e = 10 ^ 5 * 10 ^ (e - 5) := by
    rw [zpow_sub₀ (by norm_num)]; norm_num; ring
  have pe1 : (10 : ℚ) ^ (e + 1) = 10 ^ 6 * 10 ^ (e - 5) := by
    rw [zpow_add₀ (by norm_num), pe]; norm_num; ring
  set u : ℚ := 10 ^ (e - 5) with hu
  by_cases hc : (10 : ℚ) ^ e ≤ y
  · have hlog : Int.log 10 y = e := log_unique hc (by rw [pe1]; nlinarith)
    have hr : roundHalfEven (y / 10 ^ (e - 5)) = m := by
      apply roundHalfEven_unique
      left
      rw [← hu]
      have : y / u - ((m : ℤ) : ℚ) = (y - m * u) / u := by push_cast; field_simp
      rw [this, abs_div, abs_of_pos hp, div_lt_iff₀ hp]
      linarith
    unfold sig6
    simp only [hlog, hr, Int.toNat_natCast]
    rw [if_neg (by omega)]
  · push Not at hc
    have hm : m = 10 ^ 5 := by
      rw [pe] at hc
      have : (m : ℚ) < 10 ^ 5 + 1 := by
        by_contra hge
        push Not at hge
        nlinarith
      have : m < 10 ^ 5 + 1 := by exact_mod_cast this
      omega
    subst hm
    push_cast at y1 y2
    have pem : (10 : ℚ) ^ (e - 1 - 5) = u / 10 := by
      rw [show e - 1 - 5 = (e - 5) - 1 by ring, zpow_sub_one₀ (by norm_num), ← hu]; ring
    have pe' : (10 : ℚ) ^ (e - 1) = 10 ^ 4 * u := by
      rw [zpow_sub_one₀ (by norm_num), pe]; norm_num; ring
    have hlog : Int.log 10 y = e - 1 := log_unique (by rw [pe']; nlinarith) (by simpa using hc)
    have hr : roundHalfEven (y / 10 ^ (e - 1 - 5)) = 10 ^ 6 := by
      apply roundHalfEven_unique
      left
      rw [pem]
      have : y / (u / 10) - ((10 ^ 6 : ℤ) : ℚ) = (y - 10 ^ 5 * u) / (u / 10) := by
        push_cast; field_simp; ring
      rw [this, abs_div, abs_of_pos (show 0 < u / 10 by positivity), div_lt_iff₀ (by positivity)]
      rw [abs_lt]; constructor <;> linarith
    unfold sig6
    simp only [hlog, hr]
    rw [if_pos (by decide)]
    simp

/-- `%g` of the double nearest to a six-digit decimal is `%g` of the decimal. -/
theorem fmtGPos_nearest {n d : ℕ} (hn : 0 < n) (h6 : n < 10 ^ 6) (hd : d ≤ 22) :
    fmtGPos (nearest ((n : ℚ) / 10 ^ d)) = fmtGPos ((n : ℚ) / 10 ^ d) := by
  obtain ⟨hv, -, -⟩ := sig6_exact (d := d) hn h6
  have hn' : (1 : ℚ) ≤ n := by exact_mod_cast hn
  have ha : 0 < (n : ℚ) / 10 ^ d := by positivity
  obtain ⟨m5, m6, -, -, -⟩ := sig6_spec ha
  have hbig : (2 : ℚ) ^ (-1022 : ℤ) ≤ (n : ℚ) / 10 ^ d := by
    have : (1 : ℚ) / 10 ^ 22 ≤ (n : ℚ) / 10 ^ d := by
      apply div_le_div₀ (by positivity) hn' (by positivity)
      exact pow_le_pow_right₀ (by norm_num) hd
    refine le_trans ?_ this
    refine le_trans (zpow_le_zpow_right₀ (by norm_num) (show (-1022 : ℤ) ≤ -100 by norm_num)) ?_
    norm_num
  have herr := nearest_err hbig
  set a : ℚ := (n : ℚ) / 10 ^ d with haa
  rcases hs : sig6 a with ⟨m, e⟩
  rw [hs] at hv m5 m6
  simp only at hv m5 m6
  have hnear : sig6 (nearest a) = (m, e) := by
    apply sig6_near m5 m6
    rw [hv, abs_sub_comm]
    refine lt_of_le_of_lt herr ?_
    rw [← hv]
    have hp : (0 : ℚ) < 10 ^ (e - 5) := by positivity
    have hm : (m : ℚ) < 10 ^ 6 := by exact_mod_cast m6
    rw [div_lt_div_iff₀ (by positivity) (by norm_num)]
    nlinarith
  unfold fmtGPos
  rw [hnear, hs]

theorem big_of_decimal {n d : ℕ} (hn : 0 < n) (hd : d ≤ 22) :
    (2 : ℚ) ^ (-1022 : ℤ) ≤ (n : ℚ) / 10 ^ d := by
  have hn' : (1 : ℚ) ≤ n := by exact_mod_cast hn
  have : (1 : ℚ) / 10 ^ 22 ≤ (n : ℚ) / 10 ^ d := by
    apply div_le_div₀ (by positivity) hn' (by positivity)
    exact pow_le_pow_right₀ (by norm_num) hd
  refine le_trans ?_ this
  refine le_trans (zpow_le_zpow_right₀ (by norm_num) (show (-1022 : ℤ) ≤ -100 by norm_num)) ?_
  norm_num

theorem nearest_pos {a : ℚ} (ha : (2 : ℚ) ^ (-1022 : ℤ) ≤ a) : 0 < nearest a := by
  have h := nearest_err ha
  have h0 : 0 < a := lt_of_lt_of_le (by positivity) ha
  have := (abs_le.1 h).2
  have h2 : a / 2 ^ 53 < a := by
    rw [div_lt_iff₀ (by norm_num)]; nlinarith
  linarith

/-! ## Values -/

/-- Positive values: a magnitude within 0.0005 of a decimal prints as the decimal. -/
theorem absorb_pos {n d : ℕ} {y : ℚ} (hn : 0 < n) (h6 : n < 10 ^ 6) (hd : d ≤ 3)
    (hy : |y - (n : ℚ) / 10 ^ d| < 1 / 2000) :
    fmtG (nearest (roundPlaces 3 y)) = fmtG ((n : ℚ) / 10 ^ d) := by
  have hr : roundPlaces 3 y = (n : ℚ) / 10 ^ d := by
    have h1 : (n : ℚ) / 10 ^ d = ((n * 10 ^ (3 - d) : ℤ) : ℚ) / 10 ^ 3 := by
      have : (10 : ℚ) ^ 3 = 10 ^ (3 - d) * 10 ^ d := by rw [← pow_add]; congr 1; omega
      rw [this]; push_cast; field_simp
    rw [h1] at hy ⊢
    unfold roundPlaces
    rw [roundHalfEven_unique (n := (n * 10 ^ (3 - d) : ℤ))]
    left
    rw [abs_lt] at hy ⊢
    constructor <;> · push_cast at hy ⊢; linarith [hy.1, hy.2]
  rw [hr]
  have hp := nearest_pos (big_of_decimal hn (show d ≤ 22 by omega))
  have hp2 : 0 < (n : ℚ) / 10 ^ d := by
    have hn' : (1 : ℚ) ≤ n := by exact_mod_cast hn
    positivity
  unfold fmtG
  rw [if_neg hp.ne', if_neg hp.not_gt, if_neg hp2.ne', if_neg hp2.not_gt]
  exact fmtGPos_nearest hn h6 (by omega)

/-- **C71** (printing): a `float` within 0.0005 of a decimal with at most three decimals and six
digits prints exactly as that decimal; a zero can print as `-0`. -/
theorem C71_absorbed (x : F64) (hx : 0 ≤ x.mag) (n : ℤ) (d : ℕ) (hd : d ≤ 3) (hn : |n| < 10 ^ 6)
    (hy : |x.val - n / 10 ^ d| < 1 / 2000) :
    x.cleanFloat = cleanFloat (n / 10 ^ d) ∨ (n = 0 ∧ x.cleanFloat = "-0".toList) := by
  unfold cleanFloat
  rw [round3_exact hd]
  have hp : (0 : ℚ) < 10 ^ d := by positivity
  have hp3 : (10 : ℚ) ^ d ≤ 1000 := by
    have : (10 : ℚ) ^ d ≤ 10 ^ 3 := pow_le_pow_right₀ (by norm_num) hd
    linarith
  rcases lt_trichotomy n 0 with h | h | h
  · left
    obtain ⟨m, hm⟩ : ∃ m : ℕ, n = -(m : ℤ) := ⟨(-n).toNat, by omega⟩
    have hm0 : 0 < m := by omega
    have hm6 : m < 10 ^ 6 := by rw [hm, abs_neg, Nat.abs_cast] at hn; exact_mod_cast hn
    have hmq : (1 : ℚ) ≤ m := by exact_mod_cast hm0
    have hge : (1 : ℚ) / 1000 ≤ (m : ℚ) / 10 ^ d := by
      rw [div_le_div_iff₀ (by norm_num) hp]; nlinarith
    have hq : (n : ℚ) / 10 ^ d = -((m : ℚ) / 10 ^ d) := by rw [hm]; push_cast; ring
    rw [hq] at hy ⊢
    have hneg : x.neg = true := by
      by_contra hf
      rw [Bool.not_eq_true] at hf
      simp only [F64.val, hf, Bool.false_eq_true, if_false] at hy
      linarith [(abs_lt.1 hy).2]
    simp only [F64.val, hneg, if_true] at hy
    have hy' : |x.mag - (m : ℚ) / 10 ^ d| < 1 / 2000 := by
      rw [abs_lt] at hy ⊢; constructor <;> linarith [hy.1, hy.2]
    have := absorb_pos hm0 hm6 hd hy'
    unfold F64.cleanFloat F64.fmtG F64.round
    simp only [hneg, if_true]
    rw [this]
    have hpos : 0 < (m : ℚ) / 10 ^ d := by linarith
    unfold fmtG
    rw [if_neg hpos.ne', if_neg hpos.not_gt, if_neg (by linarith), if_pos (by linarith), neg_neg]
    rfl
  · subst h
    simp only [Int.cast_zero, zero_div, sub_zero] at hy ⊢
    have hm : |x.mag| < 1 / 2000 := by
      unfold F64.val at hy
      split at hy
      · rwa [abs_neg] at hy
      · exact hy
    have hr : roundPlaces 3 x.mag = 0 := by
      unfold roundPlaces
      rw [roundHalfEven_unique (n := 0)]
      · simp
      left
      rw [abs_lt] at hm ⊢
      constructor <;> · push_cast; linarith [hm.1, hm.2]
    unfold F64.cleanFloat F64.fmtG F64.round
    simp only [hr, nearest_zero]
    cases x.neg
    · left; simp
    · right; simp [fmtG]
  · left
    obtain ⟨m, hm⟩ : ∃ m : ℕ, n = (m : ℤ) := ⟨n.toNat, by omega⟩
    have hm0 : 0 < m := by omega
    have hm6 : m < 10 ^ 6 := by rw [hm, Nat.abs_cast] at hn; exact_mod_cast hn
    have hmq : (1 : ℚ) ≤ m := by exact_mod_cast hm0
    have hge : (1 : ℚ) / 1000 ≤ (m : ℚ) / 10 ^ d := by
      rw [div_le_div_iff₀ (by norm_num) hp]; nlinarith
    have hq : (n : ℚ) / 10 ^ d = (m : ℚ) / 10 ^ d := by rw [hm]; push_cast; ring
    rw [hq] at hy ⊢
    have hneg : x.neg = false := by
      by_contra hf
      rw [Bool.not_eq_false] at hf
      simp only [F64.val, hf, if_true] at hy
      linarith [(abs_lt.1 hy).1]
    simp only [F64.val, hneg, Bool.false_eq_true, if_false] at hy
    have := absorb_pos hm0 hm6 hd hy
    unfold F64.cleanFloat F64.fmtG F64.round
    simp only [hneg, Bool.false_eq_true, if_false, List.nil_append]
    exact this

/-! ## Reading -/

theorem unsigned_nonneg (r : List Char) : 0 ≤ numText.unsigned r := by
  unfold numText.unsigned
  simp only
  split <;> positivity

/-- Value of a `float` read from text: the exact value up to the rounding. -/
theorem read_val (s : List Char) :
    (F64.read s).val = if numText s < 0 then -nearest (-numText s) else nearest (numText s) := by
  unfold F64.read F64.val
  simp only
  by_cases hm : (s.dropWhile isSpace).head? = some '-'
  · have hle : numText s ≤ 0 := by
      unfold numText
      simp only
      cases hs : s.dropWhile isSpace with
      | nil => simp [hs] at hm
      | cons c r =>
        rw [hs] at hm
        simp only [List.head?_cons, Option.some.injEq] at hm
        subst hm
        simpa using unsigned_nonneg r
    have hb : ((s.dropWhile isSpace).head? == some '-') = true := by rw [hm]; rfl
    rw [hb, if_pos rfl, abs_of_nonpos hle]
    rcases hle.eq_or_lt with h0 | h0
    · rw [h0]; simp [nearest_zero]
    · rw [if_pos h0]
  · have hge : 0 ≤ numText s := by
      unfold numText
      simp only
      cases hs : s.dropWhile isSpace with
      | nil => exact unsigned_nonneg _
      | cons c r =>
        rw [hs] at hm
        simp only [List.head?_cons, Option.some.injEq] at hm
        split
        · next h => simp only [List.cons.injEq] at h; exact absurd h.1 hm
        · exact unsigned_nonneg _
    have hb : ((s.dropWhile isSpace).head? == some '-') = false := by
      simpa using hm
    rw [hb, if_neg (by simp), abs_of_nonneg hge, if_neg hge.not_gt]

theorem read_err {s : List Char} {n : ℤ} {d : ℕ} (hd : d ≤ 22) (hv : numText s = n / 10 ^ d) :
    |(F64.read s).val - n / 10 ^ d| ≤ |(n : ℚ) / 10 ^ d| / 2 ^ 53 := by
  rw [read_val, hv]
  have hp : (0 : ℚ) < 10 ^ d := by positivity
  rcases lt_trichotomy n 0 with h | h | h
  · obtain ⟨m, hm⟩ : ∃ m : ℕ, n = -(m : ℤ) := ⟨(-n).toNat, by omega⟩
    have hm0 : 0 < m := by omega
    have hmq : (1 : ℚ) ≤ m := by exact_mod_cast hm0
    have hq : (n : ℚ) / 10 ^ d = -((m : ℚ) / 10 ^ d) := by rw [hm]; push_cast; ring
    have hpos : 0 < (m : ℚ) / 10 ^ d := by positivity
    rw [hq, if_pos (by linarith), neg_neg, abs_neg, abs_of_pos hpos]
    have := nearest_err (big_of_decimal hm0 hd)
    rwa [neg_sub_neg]
  · subst h
    simp [nearest_zero]
  · obtain ⟨m, hm⟩ : ∃ m : ℕ, n = (m : ℤ) := ⟨n.toNat, by omega⟩
    have hm0 : 0 < m := by omega
    have hmq : (1 : ℚ) ≤ m := by exact_mod_cast hm0
    have hq : (n : ℚ) / 10 ^ d = (m : ℚ) / 10 ^ d := by rw [hm]; push_cast; ring
    have hpos : 0 < (m : ℚ) / 10 ^ d := by positivity
    rw [hq, if_neg hpos.not_gt, abs_of_pos hpos, abs_sub_comm]
    exact nearest_err (big_of_decimal hm0 hd)

theorem denotes_numText {s : List Char} {v : ℚ} (h : DenotesNum s v) : numText s = v := by
  obtain ⟨ws, i, f, hw, hi, hf, neg, dot, hdot, rfl, rfl⟩ := h
  exact numText_eval hw hi hf hdot

/-- **C71** (reading and printing): a text that writes a decimal with at most three decimals and six
digits, read into a `float` and printed again, gives what exact arithmetic gives; only the sign of
a zero may remain. -/
theorem C71_read_print (s : List Char) (n : ℤ) (d : ℕ) (hd : d ≤ 3) (hn : |n| < 10 ^ 6)
    (hs : DenotesNum s (n / 10 ^ d)) :
    (F64.read s).cleanFloat = cleanFloat (n / 10 ^ d) ∨
      (n = 0 ∧ (F64.read s).cleanFloat = "-0".toList) := by
  apply C71_absorbed _ (nearest_nonneg (abs_nonneg _)) n d hd hn
  refine lt_of_le_of_lt (read_err (by omega) (denotes_numText hs)) ?_
  have hp : (1 : ℚ) ≤ 10 ^ d := one_le_pow₀ (by norm_num)
  have hnq : |(n : ℚ)| < 10 ^ 6 := by exact_mod_cast hn
  rw [abs_div, abs_of_pos (show (0 : ℚ) < 10 ^ d by positivity)]
  have : |(n : ℚ)| / 10 ^ d ≤ |(n : ℚ)| := div_le_self (abs_nonneg _) hp
  rw [div_lt_iff₀ (by norm_num)]
  norm_num at hnq ⊢
  linarith

/-- **C71** (printed text is stable): the printed value of a printable float word is read and printed
again unchanged. -/
theorem C71_stable (w : Word) (hk : kindOf w.letter = some .flt) (hp : Printable w) :
    (F64.read w.valueStr).cleanFloat = w.valueStr := by
  obtain ⟨l, v⟩ := w
  unfold Printable at hp
  simp only [hk] at hp
  cases v with
  | str s => simp at hp
  | num q =>
  simp only at hp
  obtain ⟨n, d, hd, hn, rfl⟩ := hp
  have hvs : Word.valueStr ⟨l, .num ((n : ℚ) / 10 ^ d)⟩ = cleanFloat ((n : ℚ) / 10 ^ d) := by
    unfold Word.valueStr; simp only [wordKind_eq_kindOf, hk]
  rw [hvs]
  obtain ⟨neg, i, f, a, hs, ht, hv, hl, hnn⟩ := fmtG_exact hd hn
  have hc : cleanFloat ((n : ℚ) / 10 ^ d) = fmtG ((n : ℚ) / 10 ^ d) := by
    unfold cleanFloat; rw [round3_exact hd]
  have hden : DenotesNum (cleanFloat ((n : ℚ) / 10 ^ d)) (n / 10 ^ d) := by
    refine ⟨[], i, f, blank_nil, hs.di, hs.df, neg, !(decide (f = [])), by simp, ?_, ?_⟩
    · rw [hc, ht]; by_cases hf : f = [] <;> simp [hf]
    · rw [hv, hs.val]
  rcases C71_read_print _ n d hd hn hden with h | ⟨rfl, h⟩
  · exact h
  · exfalso
    revert h
    simp only [Int.cast_zero, zero_div]
    decide +kernel

/-- **C71** (codes): the same for the numbers of G and M words. -/
theorem C71_codes (s : List Char) (n d : ℕ) (hd : d ≤ 1) (hn : n < 10 ^ 6)
    (hm : (s.dropWhile isSpace).head? ≠ some '-') (hs : DenotesNum s (n / 10 ^ d)) :
    (F64.read s).cleanCode = cleanCode (n / 10 ^ d) := by
  have hv := denotes_numText hs
  have hp : (0 : ℚ) < 10 ^ d := by positivity
  have hb : ((s.dropWhile isSpace).head? == some '-') = false := by simpa using hm
  have hr : F64.read s = ⟨false, nearest ((n : ℚ) / 10 ^ d)⟩ := by
    unfold F64.read; rw [hb, hv, abs_of_nonneg (by positivity)]
  have hfmt : fmtG (nearest ((n : ℚ) / 10 ^ d)) = fmtG ((n : ℚ) / 10 ^ d) := by
    rcases Nat.eq_zero_or_pos n with rfl | h0
    · simp [nearest_zero]
    · have h1 := nearest_pos (big_of_decimal h0 (show d ≤ 22 by omega))
      have h2 : 0 < (n : ℚ) / 10 ^ d := by
        have hn' : (1 : ℚ) ≤ n := by exact_mod_cast h0
        positivity
      unfold fmtG
      rw [if_neg h1.ne', if_neg h1.not_gt, if_neg h2.ne', if_neg h2.not_gt]
      exact fmtGPos_nearest h0 hn (by omega)
  have hlt : nearest ((n : ℚ) / 10 ^ d) < 10 ↔ (n : ℚ) / 10 ^ d < 10 := by
    constructor
    · intro h
      by_contra hge
      push Not at hge
      have := nearest_closest (a := (n : ℚ) / 10 ^ d) (y := 10) (by positivity)
        ⟨10, 0, by norm_num, by norm_num, by simp⟩
      rw [abs_of_nonneg (show (0 : ℚ) ≤ n / 10 ^ d - 10 by linarith)] at this
      linarith [(abs_le.1 this).2]
    · intro h
      rcases Nat.eq_zero_or_pos n with rfl | h0
      · simp [nearest_zero]
      · have herr := nearest_err (big_of_decimal h0 (show d ≤ 22 by omega))
        have h9 : (n : ℚ) / 10 ^ d ≤ 9.9 := by
          rw [div_lt_iff₀ hp] at h
          rw [div_le_iff₀ hp]
          have hd' : d = 0 ∨ d = 1 := by omega
          rcases hd' with rfl | rfl
          · norm_num at h ⊢
            have : n < 10 := by exact_mod_cast h
            have : (n : ℚ) ≤ 9 := by exact_mod_cast (by omega : n ≤ 9)
            linarith
          · norm_num at h ⊢
            have : n < 100 := by exact_mod_cast h
            have : (n : ℚ) ≤ 99 := by exact_mod_cast (by omega : n ≤ 99)
            linarith
        have h10 : (n : ℚ) / 10 ^ d / 2 ^ 53 ≤ 9.9 / 2 ^ 53 := by gcongr
        have := (abs_le.1 herr).1
        norm_num at h9 h10 this ⊢
        linarith
  rw [hr]
  unfold F64.cleanCode cleanCode F64.fmtG F64.val
  simp only [Bool.false_eq_true, if_false, List.nil_append, hfmt]
  by_cases hc : (n : ℚ) / 10 ^ d < 10
  · rw [if_pos (hlt.2 hc), if_pos hc]
  · rw [if_neg (fun h => hc (hlt.1 h)), if_neg hc]

/-- **C71** (comparisons): `float`s read from decimals of up to 15 digits compare as the decimals do. -/
theorem C71_compare (s t : List Char) (n m : ℤ) (d : ℕ) (hd : d ≤ 22) (hn : |n| < 10 ^ 15)
    (hm : |m| < 10 ^ 15) (hs : DenotesNum s (n / 10 ^ d)) (ht : DenotesNum t (m / 10 ^ d)) :
    ((F64.read s).val < (F64.read t).val ↔ (n : ℚ) / 10 ^ d < m / 10 ^ d) ∧
    ((F64.read s).val = (F64.read t).val ↔ (n : ℚ) / 10 ^ d = m / 10 ^ d) := by
  have es := read_err hd (denotes_numText hs)
  have et := read_err hd (denotes_numText ht)
  have hp : (0 : ℚ) < 10 ^ d := by positivity
  -- distinct decimals stay apart
  have key : ∀ (a b : ℤ) (x y : ℚ), |a| < 10 ^ 15 → |b| < 10 ^ 15 → a < b →
      |x - a / 10 ^ d| ≤ |(a : ℚ) / 10 ^ d| / 2 ^ 53 → |y - b / 10 ^ d| ≤ |(b : ℚ) / 10 ^ d| / 2 ^ 53 →
      x < y := by
    intro a b x y ha hb hab hx hy
    have ha' : |(a : ℚ)| < 10 ^ 15 := by exact_mod_cast ha
    have hb' : |(b : ℚ)| < 10 ^ 15 := by exact_mod_cast hb
    have hab' : (a : ℚ) + 1 ≤ b := by exact_mod_cast hab
    rw [abs_div, abs_of_pos hp] at hx hy
    have hu : (0 : ℚ) < 1 / 10 ^ d := by positivity
    have e1 : |(a : ℚ)| / 10 ^ d / 2 ^ 53 ≤ 10 ^ 15 / 2 ^ 53 * (1 / 10 ^ d) := by
      rw [div_div, div_mul_div_comm, mul_one, mul_comm ((2 : ℚ) ^ 53)]
      gcongr
    have e2 : |(b : ℚ)| / 10 ^ d / 2 ^ 53 ≤ 10 ^ 15 / 2 ^ 53 * (1 / 10 ^ d) := by
      rw [div_div, div_mul_div_comm, mul_one, mul_comm ((2 : ℚ) ^ 53)]
      gcongr
    have e3 : (a : ℚ) / 10 ^ d + 1 / 10 ^ d ≤ b / 10 ^ d := by
      rw [← add_div]; gcongr
    have h1 := (abs_le.1 hx).2
    have h2 := (abs_le.1 hy).1
    set u : ℚ := 1 / 10 ^ d
    norm_num at e1 e2 h1 h2
    linarith
  have keq : ∀ a b : ℤ, (a : ℚ) / 10 ^ d < b / 10 ^ d ↔ a < b := by
    intro a b
    rw [div_lt_div_iff_of_pos_right hp]; exact_mod_cast Iff.rfl
  have heq : n = m → (F64.read s).val = (F64.read t).val := by
    intro h
    rw [read_val, read_val, denotes_numText hs, denotes_numText ht, h]
  rw [keq]
  have hq : (n : ℚ) / 10 ^ d = m / 10 ^ d ↔ n = m := by
    rw [div_left_inj' hp.ne']; exact_mod_cast Iff.rfl
  rw [hq]
  rcases lt_trichotomy n m with h | h | h
  · have := key n m _ _ hn hm h es et
    exact ⟨by simp [h, this], by simp [h.ne, this.ne]⟩
  · have := heq h
    exact ⟨by simp [h, this], by simp [h, this]⟩
  · have := key m n _ _ hm hn h et es
    exact ⟨by simp [h.not_gt, this.not_gt], by simp [h.ne', this.ne']⟩

/-! ### Cases -/

-- 0.1 is not a double, but prints as itself; 0.1 + 0.2 is not 0.3 and still prints as 0.3
example : (F64.read "0.1".toList).val ≠ 1 / 10 := by decide +kernel
example : (F64.read "0.1".toList).cleanFloat = "0.1".toList := by decide +kernel
example : ((F64.read "0.1".toList).add (F64.read "0.2".toList)).val ≠ (F64.read "0.3".toList).val := by
  decide +kernel
example : ((F64.read "0.1".toList).add (F64.read "0.2".toList)).cleanFloat = "0.3".toList := by
  decide +kernel
-- a tie of the decimal value is not a tie of the double: 1.0005 is below, 2.0005 above
example : (F64.read "1.0005".toList).cleanFloat = "1".toList ∧
    (F64.read "1.0015".toList).cleanFloat = "1.002".toList := by decide +kernel
-- the sign of a zero
example : (F64.read "-0.0001".toList).cleanFloat = "-0".toList := by decide +kernel
example : (F64.read "38.2".toList).cleanCode = "38.2".toList := by decide +kernel
example : (F64.read "5".toList).cleanCode = "05".toList := by decide +kernel
-- the bound on the number of digits in `C71_compare` matters
example : (F64.read "9007199254740993".toList).val = (F64.read "9007199254740992".toList).val := by
  decide +kernel
example : DenotesNum "0.1".toList (((1 : ℤ) : ℚ) / 10 ^ 1) :=
  ⟨[], ['0'], ['1'], by simp [Blank], by simp [Digits], by simp [Digits], false, true, by simp, by simp,
    by decide +kernel⟩

end Pygcode.Props
