import Verif.Lemmas.Lex
import Verif.Spec.Printing
import Mathlib.Algebra.Order.Floor.Ring
import Mathlib.Algebra.Order.Field.Power
import Mathlib.Tactic.Linarith
import Mathlib.Tactic.Positivity
import Mathlib.Tactic.NormNum
import Mathlib.Tactic.FieldSimp
import Mathlib.Tactic.Ring

/-! Helper lemmas about rounding and the `%g` printer. -/

namespace Pygcode
open Spec

section round
variable {K : Type*} [Field K] [LinearOrder K] [IsStrictOrderedRing K] [FloorRing K]

theorem roundHalfEven_spec (q : K) :
    |q - roundHalfEven q| < 1 / 2 ∨ (|q - roundHalfEven q| = 1 / 2 ∧ roundHalfEven q % 2 = 0) := by
  have h1 := Int.floor_le q
  have h2 := Int.lt_floor_add_one q
  unfold roundHalfEven
  simp only
  split
  · left; rw [abs_of_nonneg (by linarith)]; linarith
  · split
    · left; push_cast; rw [abs_of_neg (by linarith)]; linarith
    · have he : q - ⌊q⌋ = 1 / 2 := by linarith
      right
      split
      · next h => refine ⟨?_, h⟩; rw [abs_of_nonneg (by linarith)]; linarith
      · next h =>
        refine ⟨?_, by omega⟩
        push_cast; rw [abs_of_neg (by linarith)]; linarith

theorem roundHalfEven_unique {q : K} {n : ℤ}
    (h : |q - n| < 1 / 2 ∨ (|q - n| = 1 / 2 ∧ n % 2 = 0)) : roundHalfEven q = n := by
  have h' := roundHalfEven_spec q
  set m := roundHalfEven q with hm
  have key : ∀ a b : ℤ, (|q - a| < 1 / 2 ∨ (|q - a| = 1 / 2 ∧ a % 2 = 0)) →
      (|q - b| < 1 / 2 ∨ (|q - b| = 1 / 2 ∧ b % 2 = 0)) → ¬ a < b := by
    intro a b ha hb hab
    have hab' : (a : K) + 1 ≤ b := by exact_mod_cast hab
    rcases ha with ha | ⟨ha, ha2⟩ <;> rcases hb with hb | ⟨hb, hb2⟩
    · rw [abs_lt] at ha hb; linarith [ha.1, ha.2, hb.1, hb.2]
    · rw [abs_lt] at ha; have := (abs_le.1 hb.le); linarith [ha.1, ha.2, this.1, this.2]
    · rw [abs_lt] at hb; have := (abs_le.1 ha.le); linarith [hb.1, hb.2, this.1, this.2]
    · have h1 := abs_le.1 ha.le; have h2 := abs_le.1 hb.le
      have h3 : (b : K) ≤ a + 1 := by linarith [h1.1, h1.2, h2.1, h2.2]
      have h4 : b ≤ a + 1 := by exact_mod_cast h3
      omega
  have a1 := key _ _ h' h
  have a2 := key _ _ h h'
  omega

theorem roundHalfEven_err (q : K) : |q - roundHalfEven q| ≤ 1 / 2 := by
  rcases roundHalfEven_spec q with h | ⟨h, -⟩
  · exact h.le
  · exact h.le

theorem roundHalfEven_int (n : ℤ) : roundHalfEven (n : K) = n :=
  roundHalfEven_unique (.inl (by simp))

theorem roundHalfEven_neg (q : K) : roundHalfEven (-q) = -roundHalfEven q := by
  apply roundHalfEven_unique
  have h : |-q - ((-roundHalfEven q : ℤ) : K)| = |q - roundHalfEven q| := by
    rw [← abs_neg]; congr 1; push_cast; ring
  rw [h]
  rcases roundHalfEven_spec q with h | ⟨h, h2⟩
  · exact .inl h
  · exact .inr ⟨h, by omega⟩

theorem roundPlaces_neg (d : ℕ) (q : K) : roundPlaces d (-q) = -roundPlaces d q := by
  unfold roundPlaces
  rw [neg_mul, roundHalfEven_neg]
  push_cast; ring

theorem roundPlaces_err (d : ℕ) (q : K) : |q - roundPlaces d q| ≤ 1 / 2 / 10 ^ d := by
  unfold roundPlaces
  have h := roundHalfEven_err (q * 10 ^ d)
  have hp : (0 : K) < 10 ^ d := by positivity
  have : q - (roundHalfEven (q * 10 ^ d) : K) / 10 ^ d
      = (q * 10 ^ d - roundHalfEven (q * 10 ^ d)) / 10 ^ d := by field_simp
  rw [this, abs_div, abs_of_pos hp]
  gcongr

theorem roundPlaces_exact (d : ℕ) (n : ℤ) : roundPlaces d ((n : K) / 10 ^ d) = n / 10 ^ d := by
  unfold roundPlaces
  have : (n : K) / 10 ^ d * 10 ^ d = n := by field_simp
  rw [this, roundHalfEven_int]

theorem roundHalfEven_mono {a b : K} (h : a ≤ b) : roundHalfEven a ≤ roundHalfEven b := by
  by_contra hlt
  have hlt : roundHalfEven b + 1 ≤ roundHalfEven a := by omega
  have hlt' : (roundHalfEven b : K) + 1 ≤ roundHalfEven a := by exact_mod_cast hlt
  have ha := abs_le.1 (roundHalfEven_err a)
  have hb := abs_le.1 (roundHalfEven_err b)
  have : a = b := by linarith [ha.1, ha.2, hb.1, hb.2]
  subst this
  linarith

end round

/-! ### Digit strings -/

theorem digits_toDigits (n : ℕ) : Digits (Nat.toDigits 10 n) :=
  fun _ hc => Nat.isDigit_of_mem_toDigits (by decide) (by decide) hc

theorem digits_replicate (n : ℕ) : Digits (List.replicate n '0') := by
  intro c hc
  rw [List.mem_replicate] at hc
  rw [hc.2]; decide

theorem digitsVal_toDigits (n : ℕ) : digitsVal (Nat.toDigits 10 n) = n := by
  rw [digitsVal_eq, Nat.ofDigitChars_ten_toDigits]

theorem digitsVal_append (a b : List Char) :
    digitsVal (a ++ b) = 10 ^ b.length * digitsVal a + digitsVal b := by
  rw [digitsVal_eq, digitsVal_eq, digitsVal_eq, Nat.ofDigitChars_append,
    Nat.ofDigitChars_eq_ofDigitChars_zero]

theorem digitsVal_replicate (n : ℕ) : digitsVal (List.replicate n '0') = 0 := by
  rw [digitsVal_eq, Nat.ofDigitChars_replicate_zero]; simp

theorem digitsVal_padDigits (p r : ℕ) : digitsVal (padDigits p r) = r := by
  unfold padDigits
  simp only [digitsVal_append, digitsVal_replicate, digitsVal_toDigits]
  simp

theorem digits_padDigits (p r : ℕ) : Digits (padDigits p r) :=
  digits_append (digits_replicate _) (digits_toDigits _)

theorem length_padDigits {p r : ℕ} (hr : r < 10 ^ p) (hp : 0 < p) : (padDigits p r).length = p := by
  unfold padDigits
  have : (Nat.toDigits 10 r).length ≤ p := (Nat.length_toDigits_le_iff (by decide) hp).2 hr
  simp; omega

theorem stripZeros_spec (l : List Char) :
    ∃ z, l = stripZeros l ++ List.replicate z '0' := by
  unfold stripZeros
  refine ⟨(l.reverse.takeWhile (· == '0')).length, ?_⟩
  have h := List.takeWhile_append_dropWhile (p := (· == '0')) (l := l.reverse)
  have h2 : l.reverse.takeWhile (· == '0') =
      List.replicate (l.reverse.takeWhile (· == '0')).length '0' := by
    rw [List.eq_replicate_iff]
    refine ⟨rfl, fun b hb => ?_⟩
    have := mem_takeWhile hb
    simpa using this
  have h3 : l = (l.reverse.dropWhile (· == '0')).reverse ++ (l.reverse.takeWhile (· == '0')).reverse := by
    rw [← List.reverse_append, h, List.reverse_reverse]
  conv_lhs => rw [h3, h2]
  simp

theorem stripZeros_last (l : List Char) : ∀ x ∈ (stripZeros l).getLast?, x ≠ '0' := by
  unfold stripZeros
  intro x hx
  rw [List.getLast?_reverse] at hx
  have := head_dropWhile x hx
  simpa using this

theorem digits_stripZeros {l : List Char} (h : Digits l) : Digits (stripZeros l) := by
  obtain ⟨z, hz⟩ := stripZeros_spec l
  intro c hc
  exact h c (by rw [hz]; simp [hc])

theorem digitsVal_stripZeros (l : List Char) :
    (digitsVal (stripZeros l) : ℚ) / 10 ^ (stripZeros l).length = digitsVal l / 10 ^ l.length := by
  obtain ⟨z, hz⟩ := stripZeros_spec l
  conv_rhs => rw [hz]
  rw [digitsVal_append, digitsVal_replicate]
  simp only [List.length_replicate, List.length_append, add_zero, pow_add, Nat.cast_mul, Nat.cast_pow,
    Nat.cast_ofNat]
  have : (10 : ℚ) ^ z ≠ 0 := by positivity
  field_simp

/-- Printed number text: an integer part and a possibly empty fraction part without trailing
zeros. -/
structure NumStr (t : List Char) (i f : List Char) (a : ℚ) : Prop where
  eq : t = i ++ (if f = [] then [] else '.' :: f)
  ine : i ≠ []
  di : Digits i
  df : Digits f
  val : a = digitsVal i + (digitsVal f : ℚ) / 10 ^ f.length
  last : ∀ x ∈ f.getLast?, x ≠ '0'

theorem fixedStr_num (N p : ℕ) : NumStr (fixedStr N p) (Nat.toDigits 10 (N / 10 ^ p))
    (stripZeros (padDigits p (N % 10 ^ p))) ((N : ℚ) / 10 ^ p) := by
  refine ⟨rfl, Nat.toDigits_ne_nil, digits_toDigits _, digits_stripZeros (digits_padDigits _ _), ?_,
    stripZeros_last _⟩
  rw [digitsVal_stripZeros, digitsVal_toDigits, digitsVal_padDigits]
  have hpos : (10 : ℚ) ^ p ≠ 0 := by positivity
  have hN : (N : ℚ) = 10 ^ p * (N / 10 ^ p : ℕ) + (N % 10 ^ p : ℕ) := by
    exact_mod_cast (Nat.div_add_mod N (10 ^ p)).symm
  rcases Nat.eq_zero_or_pos p with rfl | hp
  · have h0 : N % 10 ^ 0 = 0 := by simp [Nat.mod_one]
    rw [h0]; simp
  · rw [length_padDigits (Nat.mod_lt _ (by positivity)) hp]
    conv_lhs => rw [hN]
    field_simp

theorem fixedStr_spec (N p : ℕ) : ∃ i f, NumStr (fixedStr N p) i f ((N : ℚ) / 10 ^ p) := ⟨_, _, fixedStr_num N p⟩

/-- The fraction part is no longer than the number of decimals of the value. -/
theorem NumStr.frac_le {t i f : List Char} {a : ℚ} (h : NumStr t i f a) {d : ℕ}
    (hd : ∃ n : ℤ, a = n / 10 ^ d) : f.length ≤ d := by
  by_contra hlt
  obtain ⟨n, hn⟩ := hd
  have hne : f ≠ [] := by rintro rfl; simp at hlt
  obtain ⟨g, x, rfl⟩ : ∃ g x, f = g ++ [x] := ⟨_, _, (List.dropLast_append_getLast hne).symm⟩
  have hx := h.last x (by simp)
  have hxd := h.df x (by simp)
  have hlen : (g ++ [x]).length = g.length + 1 := by simp
  have hval := h.val
  rw [hn, digitsVal_append, hlen] at hval
  obtain ⟨k, hk⟩ : ∃ k, g.length = d + k := ⟨g.length - d, by simp at hlt; omega⟩
  have h1 : (10 ^ (k + 1) * n : ℤ) = 10 ^ (g.length + 1) * digitsVal i +
      (10 * digitsVal g + digitsVal [x]) := by
    have hq : ((10 ^ (k + 1) * n : ℤ) : ℚ) = ((10 ^ (g.length + 1) * digitsVal i +
      (10 * digitsVal g + digitsVal [x]) : ℤ) : ℚ) := by
      have e1 : (10 : ℚ) ^ (g.length + 1) = 10 ^ d * 10 ^ (k + 1) := by rw [hk, ← pow_add]; ring_nf
      push_cast
      push_cast at hval
      have hp : (10 : ℚ) ^ d ≠ 0 := by positivity
      have hp2 : (10 : ℚ) ^ (k + 1) ≠ 0 := by positivity
      rw [e1] at hval ⊢
      field_simp at hval
      simp only [List.length_singleton, pow_one] at hval
      linarith
    exact_mod_cast hq
  have h2 : (10 : ℤ) ∣ digitsVal [x] := by
    have a1 : (10 : ℤ) ∣ 10 ^ (k + 1) * n := ⟨10 ^ k * n, by ring⟩
    rw [h1] at a1
    have a2 : (10 : ℤ) ∣ 10 ^ (g.length + 1) * digitsVal i := ⟨10 ^ g.length * digitsVal i, by ring⟩
    have a3 : (10 : ℤ) ∣ 10 * digitsVal g := ⟨_, rfl⟩
    have := (Int.dvd_add_right a2).1 a1
    exact (Int.dvd_add_right a3).1 this
  have h3 : 10 ∣ digitsVal [x] := by exact_mod_cast h2
  simp only [digitsVal, List.foldl_cons, List.foldl_nil, mul_zero, zero_add] at h3
  simp only [Char.isDigit, Bool.and_eq_true, decide_eq_true_eq, UInt32.le_iff_toNat_le] at hxd
  have b1 : 48 ≤ x.toNat := hxd.1
  have b2 : x.toNat ≤ 57 := hxd.2
  have : x.toNat = 48 := by omega
  apply hx
  rw [← Char.ofNat_toNat x, this]

/-! ### Six significant digits -/

theorem log_bounds {a : ℚ} (ha : 0 < a) :
    (10 : ℚ) ^ Int.log 10 a ≤ a ∧ a < 10 ^ (Int.log 10 a + 1) := by
  have h1 := Int.zpow_log_le_self (b := 10) (r := a) (by decide) ha
  have h2 := Int.lt_zpow_succ_log_self (b := 10) (by decide) a
  exact_mod_cast And.intro h1 h2

theorem log_unique {a : ℚ} {e : ℤ} (h1 : (10 : ℚ) ^ e ≤ a) (h2 : a < 10 ^ (e + 1)) :
    Int.log 10 a = e := by
  have ha : 0 < a := lt_of_lt_of_le (by positivity) h1
  obtain ⟨b1, b2⟩ := log_bounds ha
  have hlt1 : (10 : ℚ) ^ e < 10 ^ (Int.log 10 a + 1) := lt_of_le_of_lt h1 b2
  have hlt2 : (10 : ℚ) ^ Int.log 10 a < 10 ^ (e + 1) := lt_of_le_of_lt b1 h2
  rw [zpow_lt_zpow_iff_right₀ (by norm_num)] at hlt1 hlt2
  omega

/-- The scaled number lies in `[10^5, 10^6)`. -/
theorem scaled_bounds {a : ℚ} (ha : 0 < a) :
    (10 : ℚ) ^ 5 ≤ a / 10 ^ (Int.log 10 a - 5) ∧ a / 10 ^ (Int.log 10 a - 5) < 10 ^ 6 := by
  obtain ⟨b1, b2⟩ := log_bounds ha
  have hp : (0 : ℚ) < 10 ^ (Int.log 10 a - 5) := by positivity
  rw [le_div_iff₀ hp, div_lt_iff₀ hp]
  have e1 : (10 : ℚ) ^ 5 * 10 ^ (Int.log 10 a - 5) = 10 ^ Int.log 10 a := by
    rw [← zpow_natCast, ← zpow_add₀ (by norm_num)]; congr 1; push_cast; ring
  have e2 : (10 : ℚ) ^ 6 * 10 ^ (Int.log 10 a - 5) = 10 ^ (Int.log 10 a + 1) := by
    rw [← zpow_natCast, ← zpow_add₀ (by norm_num)]; congr 1; push_cast; ring
  rw [e1, e2]
  exact ⟨b1, b2⟩

theorem round_scaled_bounds {a : ℚ} (ha : 0 < a) :
    10 ^ 5 ≤ roundHalfEven (a / 10 ^ (Int.log 10 a - 5)) ∧
    roundHalfEven (a / 10 ^ (Int.log 10 a - 5)) ≤ 10 ^ 6 := by
  obtain ⟨s1, s2⟩ := scaled_bounds ha
  constructor
  · have := roundHalfEven_mono s1
    have e : roundHalfEven ((10 : ℚ) ^ 5) = 10 ^ 5 := by
      have := roundHalfEven_int (K := ℚ) (10 ^ 5); push_cast at this; exact this
    rwa [e] at this
  · have := roundHalfEven_mono s2.le
    have e : roundHalfEven ((10 : ℚ) ^ 6) = 10 ^ 6 := by
      have := roundHalfEven_int (K := ℚ) (10 ^ 6); push_cast at this; exact this
    rwa [e] at this

/-- What `sig6` computes: the six-digit decimal closest to `a`. -/
theorem sig6_spec {a : ℚ} (ha : 0 < a) :
    10 ^ 5 ≤ (sig6 a).1 ∧ (sig6 a).1 < 10 ^ 6 ∧
    ((sig6 a).1 : ℚ) * 10 ^ ((sig6 a).2 - 5) =
      roundHalfEven (a / 10 ^ (Int.log 10 a - 5)) * 10 ^ (Int.log 10 a - 5) ∧
    ((sig6 a).2 = Int.log 10 a ∨ (sig6 a).2 = Int.log 10 a + 1) ∧
    ((sig6 a).2 = Int.log 10 a + 1 ↔
      roundHalfEven (a / 10 ^ (Int.log 10 a - 5)) = 10 ^ 6) := by
  obtain ⟨r1, r2⟩ := round_scaled_bounds ha
  set r := roundHalfEven (a / 10 ^ (Int.log 10 a - 5)) with hr
  have hrn : (r.toNat : ℤ) = r := Int.toNat_of_nonneg (by omega)
  have hrq : ((r.toNat : ℕ) : ℚ) = (r : ℚ) := by exact_mod_cast hrn
  unfold sig6
  simp only [← hr]
  split
  · next h =>
    have hr6 : r = 10 ^ 6 := by omega
    refine ⟨by norm_num, by norm_num, ?_, .inr rfl, by simp [hr6]⟩
    rw [hr6]
    simp only
    rw [show Int.log 10 a + 1 - 5 = (Int.log 10 a - 5) + 1 by ring, zpow_add_one₀ (by norm_num)]
    push_cast; ring
  · next h =>
    refine ⟨by omega, by omega, by rw [hrq], .inl rfl, ?_⟩
    constructor
    · intro h'; simp only at h'; omega
    · intro h'; exfalso; apply h; omega

theorem sig6_err {a : ℚ} (ha : 0 < a) :
    |((sig6 a).1 : ℚ) * 10 ^ ((sig6 a).2 - 5) - a| ≤ 1 / 2 * 10 ^ (Int.log 10 a - 5) := by
  rw [(sig6_spec ha).2.2.1]
  have h := roundHalfEven_err (a / 10 ^ (Int.log 10 a - 5))
  have hp : (0 : ℚ) < 10 ^ (Int.log 10 a - 5) := by positivity
  have : (roundHalfEven (a / 10 ^ (Int.log 10 a - 5)) : ℚ) * 10 ^ (Int.log 10 a - 5) - a =
      -((a / 10 ^ (Int.log 10 a - 5) - roundHalfEven (a / 10 ^ (Int.log 10 a - 5))) *
        10 ^ (Int.log 10 a - 5)) := by field_simp; ring
  rw [this, abs_neg, abs_mul, abs_of_pos hp]
  gcongr

/-- Value shown for a positive number in fixed notation. -/
theorem fmtGPos_fixed {a : ℚ} (he : -4 ≤ (sig6 a).2 ∧ (sig6 a).2 < 6) :
    ∃ i f, NumStr (fmtGPos a) i f (((sig6 a).1 : ℚ) * 10 ^ ((sig6 a).2 - 5)) := by
  obtain ⟨i, f, h⟩ := fixedStr_spec (sig6 a).1 (5 - (sig6 a).2).toNat
  refine ⟨i, f, ?_⟩
  have e1 : fmtGPos a = fixedStr (sig6 a).1 (5 - (sig6 a).2).toNat := by
    unfold fmtGPos; simp only [he, and_self, if_true]
  have e2 : ((sig6 a).1 : ℚ) * 10 ^ ((sig6 a).2 - 5) =
      ((sig6 a).1 : ℚ) / 10 ^ (5 - (sig6 a).2).toNat := by
    rw [div_eq_mul_inv, ← zpow_natCast, ← zpow_neg]
    congr 2
    rw [Int.toNat_of_nonneg (by omega)]; ring
  rw [e1, e2]; exact h

/-- Exact printing: a value with at most `d ≤ 3`... six digits in all. -/
theorem sig6_exact {n : ℕ} {d : ℕ} (hn : 0 < n) (hn6 : n < 10 ^ 6) :
    ((sig6 ((n : ℚ) / 10 ^ d)).1 : ℚ) * 10 ^ ((sig6 ((n : ℚ) / 10 ^ d)).2 - 5) = n / 10 ^ d ∧
    -(d : ℤ) ≤ (sig6 ((n : ℚ) / 10 ^ d)).2 ∧ (sig6 ((n : ℚ) / 10 ^ d)).2 ≤ 5 - d := by
  set a : ℚ := (n : ℚ) / 10 ^ d with haa
  have hn' : (0 : ℚ) < n := by exact_mod_cast hn
  have ha : 0 < a := by positivity
  obtain ⟨b1, b2⟩ := log_bounds ha
  set e := Int.log 10 a with hee
  have he1 : e ≤ 5 - d := by
    have hlt : (10 : ℚ) ^ e < 10 ^ (6 - (d : ℤ)) := by
      refine lt_of_le_of_lt b1 ?_
      rw [zpow_sub₀ (by norm_num), haa, zpow_natCast]
      have h6 : (n : ℚ) < 10 ^ (6 : ℤ) := by exact_mod_cast hn6
      gcongr
    rw [zpow_lt_zpow_iff_right₀ (by norm_num)] at hlt
    omega
  have he0 : -(d : ℤ) ≤ e := by
    have hlt : (10 : ℚ) ^ (-(d : ℤ)) < 10 ^ (e + 1) := by
      refine lt_of_le_of_lt ?_ b2
      rw [zpow_neg, zpow_natCast, haa, div_eq_mul_inv]
      have h1 : (1 : ℚ) ≤ n := by exact_mod_cast hn
      have hp : (0 : ℚ) < (10 ^ d)⁻¹ := by positivity
      nlinarith
    rw [zpow_lt_zpow_iff_right₀ (by norm_num)] at hlt
    omega
  -- the scaled number is an integer
  obtain ⟨k, hk⟩ : ∃ k : ℕ, (k : ℤ) = 5 - d - e := ⟨(5 - d - e).toNat, Int.toNat_of_nonneg (by omega)⟩
  have hsc : a / 10 ^ (e - 5) = ((n * 10 ^ k : ℤ) : ℚ) := by
    push_cast
    rw [haa, div_div, ← zpow_natCast, ← zpow_natCast, ← zpow_add₀ (by norm_num), hk,
      div_eq_mul_inv, ← zpow_neg]
    congr 2; ring
  obtain ⟨-, -, hval, h4, h5⟩ := sig6_spec ha
  rw [← hee] at hval h4 h5
  rw [hsc, roundHalfEven_int] at hval h5
  obtain ⟨-, s2⟩ := scaled_bounds ha
  rw [← hee, hsc] at s2
  have hlt : (n * 10 ^ k : ℤ) < 10 ^ 6 := by exact_mod_cast s2
  have hE : (sig6 a).2 = e := by
    rcases h4 with h | h
    · exact h
    · have := h5.1 h; omega
  refine ⟨?_, by omega, by omega⟩
  rw [hval, ← hsc]
  field_simp

/-! ### Printed numbers -/

/-- `fmtG` in fixed notation: optional sign, then a number text. -/
theorem fmtG_exact {n : ℤ} {d : ℕ} (hd : d ≤ 3) (hn : |n| < 10 ^ 6) :
    ∃ neg : Bool, ∃ i f a, NumStr (fmtG ((n : ℚ) / 10 ^ d) |>.drop (if neg then 1 else 0)) i f a ∧
      fmtG ((n : ℚ) / 10 ^ d) = (if neg then ['-'] else []) ++ i ++ (if f = [] then [] else '.' :: f) ∧
      (n : ℚ) / 10 ^ d = (if neg then -1 else 1) * a ∧ f.length ≤ d ∧ (neg = true → n < 0) := by
  have hp : (0 : ℚ) < 10 ^ d := by positivity
  have main : ∀ m : ℕ, 0 < m → m < 10 ^ 6 → ∃ i f, NumStr (fmtGPos ((m : ℚ) / 10 ^ d)) i f
      ((m : ℚ) / 10 ^ d) ∧ f.length ≤ d := by
    intro m h0 h6
    obtain ⟨hv, h1, h2⟩ := sig6_exact (d := d) h0 h6
    obtain ⟨i, f, h⟩ := fmtGPos_fixed (a := (m : ℚ) / 10 ^ d) ⟨by omega, by omega⟩
    rw [hv] at h
    exact ⟨i, f, h, h.frac_le ⟨m, by push_cast; rfl⟩⟩
  rcases lt_trichotomy n 0 with h | h | h
  · obtain ⟨m, hm⟩ : ∃ m : ℕ, (m : ℤ) = -n := ⟨(-n).toNat, by omega⟩
    have hnm : (n : ℚ) = -(m : ℚ) := by
      have : n = -(m : ℤ) := by omega
      rw [this]; push_cast; rfl
    rw [abs_of_neg h] at hn
    obtain ⟨i, f, hs, hf⟩ := main m (by omega) (by omega)
    have hneg : (n : ℚ) / 10 ^ d < 0 := by
      have : (n : ℚ) < 0 := by exact_mod_cast h
      exact div_neg_of_neg_of_pos this hp
    have hfm : fmtG ((n : ℚ) / 10 ^ d) = '-' :: fmtGPos ((m : ℚ) / 10 ^ d) := by
      unfold fmtG
      rw [if_neg hneg.ne, if_pos hneg]
      congr 2; rw [hnm]; ring
    refine ⟨true, i, f, (m : ℚ) / 10 ^ d, ?_, ?_, ?_, hf, fun _ => h⟩
    · rw [hfm]; simpa using hs
    · rw [hfm, hs.eq]; simp
    · rw [hnm]; simp; ring
  · subst h
    have hz : fmtG (((0 : ℤ) : ℚ) / 10 ^ d) = ['0'] := by simp [fmtG]
    refine ⟨false, ['0'], [], 0, ⟨?_, by simp, ?_, ?_, ?_, by simp⟩, ?_, ?_, by simp, by simp⟩
    · rw [hz]; simp
    · intro c hc; simp at hc; subst hc; decide
    · intro c hc; simp at hc
    · simp [digitsVal]
    · rw [hz]; simp
    · simp
  · obtain ⟨m, hm⟩ : ∃ m : ℕ, (m : ℤ) = n := ⟨n.toNat, by omega⟩
    have hnm : (n : ℚ) = (m : ℚ) := by rw [← hm]; push_cast; rfl
    rw [abs_of_pos h] at hn
    obtain ⟨i, f, hs, hf⟩ := main m (by omega) (by omega)
    have hpos : 0 < (n : ℚ) / 10 ^ d := by
      have : (0 : ℚ) < n := by exact_mod_cast h
      positivity
    have hfm : fmtG ((n : ℚ) / 10 ^ d) = fmtGPos ((m : ℚ) / 10 ^ d) := by
      unfold fmtG
      rw [if_neg hpos.ne', if_neg hpos.not_gt]
      rw [hnm]
    refine ⟨false, i, f, (m : ℚ) / 10 ^ d, ?_, ?_, ?_, hf, by simp⟩
    · rw [hfm]; simpa using hs
    · rw [hfm, hs.eq]; simp
    · rw [hnm]; simp

theorem round3_exact {n : ℤ} {d : ℕ} (hd : d ≤ 3) :
    roundPlaces 3 ((n : ℚ) / 10 ^ d) = n / 10 ^ d := by
  have : (n : ℚ) / 10 ^ d = ((n * 10 ^ (3 - d) : ℤ) : ℚ) / 10 ^ 3 := by
    push_cast
    have h : (10 : ℚ) ^ 3 = 10 ^ d * 10 ^ (3 - d) := by rw [← pow_add]; congr 1; omega
    rw [h]; field_simp
  rw [this, roundPlaces_exact]

/-- Text that a value of each kind can be followed by. -/
def NoExtend (r : List Char) : Prop := ∀ x ∈ r.head?, x.isDigit = false ∧ x ≠ '.'

theorem blank_nil : Blank [] := by simp [Blank]
theorem digits_nil : Digits [] := by simp [Digits]
theorem sign_if (neg : Bool) : Sign (if neg then ['-'] else []) := by cases neg <;> simp [Sign]

/-- A number text is matched completely by the float regex. -/
theorem matchFloat_numStr {neg : Bool} {i f r : List Char} (hi : i ≠ []) (di : Digits i)
    (df : Digits f) (hr : NoExtend r) :
    matchFloat ((if neg then ['-'] else []) ++ i ++ (if f = [] then [] else '.' :: f) ++ r) =
      some ((if neg then ['-'] else []) ++ i ++ (if f = [] then [] else '.' :: f), r) := by
  by_cases hf : f = []
  · have := matchFloat_eval_int blank_nil (sign_if neg) di hi hr
    simp only [List.nil_append] at this
    simp only [hf, if_true, List.append_nil, List.append_assoc]
    rw [this]
  · have := matchFloat_eval_dot blank_nil (sign_if neg) di df (.inl hi) (fun x hx => (hr x hx).1)
    simp only [List.nil_append] at this
    simp only [hf, if_false, List.append_assoc, List.cons_append]
    rw [this]
    simp

theorem numText_numStr {neg : Bool} {i f : List Char} (di : Digits i) (df : Digits f) :
    numText ((if neg then ['-'] else []) ++ i ++ (if f = [] then [] else '.' :: f)) =
      (if neg then -1 else 1) * (digitsVal i + (digitsVal f : ℚ) / 10 ^ f.length) := by
  have := numText_eval (ws := []) (neg := neg) (dot := !(decide (f = []))) blank_nil di df (by simp)
  rw [← this]
  by_cases hf : f = [] <;> simp [hf]

/-- Reading back a printable word: its value text is matched completely, with its value. -/
theorem printable_match {w : Word} (h : Printable w) {r : List Char} (hr : NoExtend r)
    (ho : w.letter = 'O' → r = []) :
    ∃ k, wordKind w.letter = some k ∧ matchValue k (w.valueStr ++ r) = some (w.valueStr, r) ∧
      mkVal k w.valueStr = w.val := by
  obtain ⟨l, v⟩ := w
  unfold Printable at h
  unfold Word.valueStr
  rw [wordKind_eq_kindOf]
  simp only at h ⊢ ho
  cases hk : kindOf l with
  | none => simp [hk] at h
  | some k =>
    refine ⟨k, rfl, ?_⟩
    cases k with
    | flt =>
      cases v with
      | str s => simp [hk] at h
      | num q =>
        simp only [hk] at h
        obtain ⟨n, d, hd, hn, rfl⟩ := h
        obtain ⟨neg, i, f, a, hs, heq, hval, -, -⟩ := fmtG_exact hd hn
        simp only [matchValue, mkVal]
        unfold cleanFloat
        rw [round3_exact hd, heq]
        refine ⟨matchFloat_numStr hs.ine hs.di hs.df hr, ?_⟩
        rw [numText_numStr hs.di hs.df, hval, hs.val]
    | code =>
      cases v with
      | str s => simp [hk] at h
      | num q =>
        simp only [hk] at h
        obtain ⟨n, d, hd, hn, rfl⟩ := h
        have habs : |(n : ℤ)| < 10 ^ 6 := by rw [abs_of_nonneg (by omega)]; exact_mod_cast hn
        obtain ⟨neg, i, f, a, hs, heq, hval, hfl, hneg⟩ := fmtG_exact (n := (n : ℤ)) (d := d) (by omega) habs
        have hnf : neg = false := by
          cases neg with
          | false => rfl
          | true => have := hneg rfl; omega
        subst hnf
        push_cast at heq hval hs
        simp only [List.nil_append, one_mul] at heq hval
        -- printed text: digits, optional one-digit fraction
        obtain ⟨i', hi'ne, hi'd, hi'v, htxt⟩ : ∃ i', i' ≠ [] ∧ Digits i' ∧ digitsVal i' = digitsVal i ∧
            cleanCode ((n : ℚ) / 10 ^ d) = i' ++ (if f = [] then [] else '.' :: f) := by
          unfold cleanCode
          split
          · refine ⟨'0' :: i, by simp, ?_, ?_, by rw [heq]; simp⟩
            · intro c hc
              rcases List.mem_cons.1 hc with rfl | hc
              · decide
              · exact hs.di c hc
            · rw [show '0' :: i = ['0'] ++ i from rfl, digitsVal_append]; simp [digitsVal]
          · exact ⟨i, hs.ine, hs.di, rfl, heq⟩
        simp only [matchValue, mkVal]
        rw [htxt]
        have hnum := numText_numStr (neg := false) hi'd hs.df
        simp only [Bool.false_eq_true, if_false, List.nil_append, one_mul] at hnum
        rw [hnum, hi'v, hval, ← hs.val]
        refine ⟨?_, rfl⟩
        by_cases hf : f = []
        · subst hf
          have := matchCode_eval_int (r := r) blank_nil hi'd hi'ne (fun x hx => (hr x hx).1) (by
            rintro c r' rfl
            exact absurd rfl (hr '.' (by simp)).2)
          simpa using this
        · obtain ⟨c, rfl⟩ : ∃ c, f = [c] := by
            cases f with
            | nil => exact absurd rfl hf
            | cons c f' =>
              cases f' with
              | nil => exact ⟨c, rfl⟩
              | cons _ _ => simp at hfl; omega
          have := matchCode_eval_dot (r := r) blank_nil hi'd hi'ne (hs.df c (by simp))
          simpa using this
    | posint =>
      cases v with
      | str s => simp [hk] at h
      | num q =>
        simp only [hk] at h
        obtain ⟨n, hn, rfl⟩ := h
        have habs : |(n : ℤ)| < 10 ^ 6 := by rw [abs_of_nonneg (by omega)]; exact_mod_cast hn
        obtain ⟨neg, i, f, a, hs, heq, hval, hfl, hneg⟩ := fmtG_exact (n := (n : ℤ)) (d := 0) (by omega) habs
        have hnf : neg = false := by
          cases neg with
          | false => rfl
          | true => have := hneg rfl; omega
        subst hnf
        have hf0 : f = [] := List.eq_nil_of_length_eq_zero (by omega)
        subst hf0
        push_cast at heq hval hs
        simp only [pow_zero, div_one, List.nil_append, one_mul, if_true, List.append_nil] at heq hval
        simp only [matchValue, mkVal]
        unfold cleanInt
        rw [heq]
        have hnum := numText_numStr (neg := false) (f := []) hs.di digits_nil
        simp only [Bool.false_eq_true, if_false, List.nil_append, one_mul, if_true,
          List.append_nil] at hnum
        rw [hnum, hval, ← hs.val]
        have := matchInt_eval (r := r) blank_nil hs.di hs.ine (fun x hx => (hr x hx).1)
        exact ⟨by simpa using this, rfl⟩
    | tool =>
      cases v with
      | num q => simp [hk] at h
      | str s =>
        simp only [hk] at h
        obtain ⟨ws, i, rfl, hw, hne, hi⟩ := h
        have := matchInt_eval hw hi hne (r := r) (fun x hx => (hr x hx).1)
        simp only [matchValue, mkVal, List.append_assoc]
        exact ⟨this, trivial⟩
    | name =>
      cases v with
      | num q => simp [hk] at h
      | str s =>
        simp only [hk] at h
        have hO : l = 'O' := by
          unfold kindOf at hk
          split at hk <;> try cases hk
          split at hk <;> try cases hk
          split at hk
          · assumption
          · split at hk <;> try cases hk
            split at hk <;> cases hk
        rw [ho hO]
        simp only [matchValue, mkVal, List.append_nil]
        refine ⟨?_, trivial⟩
        have := matchName_eval (r := []) h.1 h.2 (.inl rfl)
        simpa using this

end Pygcode
