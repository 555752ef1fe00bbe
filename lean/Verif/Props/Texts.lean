import Verif.Props.BlockPrint
import Mathlib.Tactic.IntervalCases

/-!
# Exact texts: blanks, code numbers, exponents, block texts (C01, C02, C05, C70)
-/

namespace Pygcode
open Props Spec

/-! ## Blanks -/

/-- Code points of the characters that Python's `str.isspace` accepts (and `\s` matches). -/
def pythonBlanks : List ℕ :=
  [0x9, 0xA, 0xB, 0xC, 0xD, 0x1C, 0x1D, 0x1E, 0x1F, 0x20, 0x85, 0xA0, 0x1680,
   0x2000, 0x2001, 0x2002, 0x2003, 0x2004, 0x2005, 0x2006, 0x2007, 0x2008, 0x2009, 0x200A,
   0x2028, 0x2029, 0x202F, 0x205F, 0x3000]

/-- **C01**, blanks: exactly the blank characters of Python are skipped. -/
theorem C01_blanks (c : Char) : isSpace c = true ↔ c.toNat ∈ pythonBlanks := by
  unfold isSpace pythonBlanks
  generalize c.toNat = n
  simp only [Bool.or_eq_true, Bool.and_eq_true, decide_eq_true_eq, beq_iff_eq, List.mem_cons, List.not_mem_nil,
    or_false]
  omega

example : text2words "G1 X2\u0085Y3　".toList = .ok [⟨'G', .num 1⟩, ⟨'X', .num 2⟩, ⟨'Y', .num 3⟩] := by
  decide +kernel

/-! ## Numbers of G and M words -/

theorem fixedStr_int (N p n k : ℕ) (hk : k < 10) (h : (N : ℚ) / 10 ^ p = n + k / 10) :
    fixedStr N p = Nat.toDigits 10 n ++ (if k = 0 then [] else ['.', Nat.digitChar k]) := by
  have hfl : N / 10 ^ p = n := by
    have hpos : (0 : ℚ) < 10 ^ p := by positivity
    have hk' : (k : ℚ) < 10 := by exact_mod_cast hk
    have hN : (N : ℚ) = (n + k / 10) * 10 ^ p := by rw [← h]; field_simp
    apply Nat.div_eq_of_lt_le
    · have : (n * 10 ^ p : ℚ) ≤ N := by
        rw [hN]
        have : (0 : ℚ) ≤ k / 10 := by positivity
        nlinarith
      exact_mod_cast this
    · have : (N : ℚ) < (n + 1) * 10 ^ p := by
        rw [hN]
        have : (k : ℚ) / 10 < 1 := by linarith
        nlinarith
      exact_mod_cast this
  have hs := fixedStr_num N p
  rw [hfl] at hs
  generalize stripZeros (padDigits p (N % 10 ^ p)) = f at hs
  have hlen : f.length ≤ 1 := hs.frac_le ⟨10 * n + k, by rw [h]; push_cast; ring⟩
  have hval := hs.val
  rw [h, digitsVal_toDigits] at hval
  rw [hs.eq]
  congr 1
  match f, hlen with
  | [], _ =>
    have : (k : ℚ) = 0 := by
      simp [digitsVal] at hval
      exact_mod_cast hval
    rw [if_pos rfl, if_pos (by exact_mod_cast this)]
  | [x], _ =>
    have hx := hs.last x (by simp)
    have hd := hs.df x (by simp)
    have hv : (k : ℚ) = (digitsVal [x] : ℚ) := by
      simp only [List.length_singleton, pow_one] at hval
      linarith
    have hkv : k = x.toNat - 48 := by
      have : k = digitsVal [x] := by exact_mod_cast hv
      rw [this]; simp [digitsVal]
    have hxk : x = Nat.digitChar k := by
      rw [hkv]
      have h1 : 48 ≤ x.toNat ∧ x.toNat ≤ 57 := by
        have : x.isDigit = true := hd
        unfold Char.isDigit at this
        simp only [Bool.and_eq_true, decide_eq_true_eq, UInt32.le_iff_toNat_le] at this
        exact this
      obtain ⟨h1, h2⟩ := h1
      have : x = Char.ofNat x.toNat := (Char.ofNat_toNat x).symm
      rw [this]
      generalize x.toNat = v at h1 h2
      interval_cases v <;> rfl
    have hk0 : k ≠ 0 := by
      rintro rfl
      exact hx (by rw [hxk]; rfl)
    rw [if_neg (by simp), if_neg hk0, hxk]

/-- `%g` of a number with one decimal. -/
theorem fmtG_tenths (n k : ℕ) (hk : k < 10) (hn : n < 10 ^ 5) :
    fmtG ((n : ℚ) + k / 10) = Nat.toDigits 10 n ++ (if k = 0 then [] else ['.', Nat.digitChar k]) := by
  by_cases h0 : n = 0 ∧ k = 0
  · obtain ⟨rfl, rfl⟩ := h0
    simp [fmtG]
  have hN : (n : ℚ) + k / 10 = ((10 * n + k : ℕ) : ℚ) / 10 ^ 1 := by push_cast; ring
  have hpos : 0 < 10 * n + k := by omega
  have hq : (0 : ℚ) < n + k / 10 := by
    rw [hN]
    have : (0 : ℚ) < ((10 * n + k : ℕ) : ℚ) := by exact_mod_cast hpos
    positivity
  obtain ⟨hv, h1, h2⟩ := sig6_exact (d := 1) hpos (by omega : 10 * n + k < 10 ^ 6)
  rw [← hN] at hv h1 h2
  unfold fmtG
  rw [if_neg hq.ne', if_neg hq.not_gt]
  unfold fmtGPos
  have he : -4 ≤ (sig6 ((n : ℚ) + k / 10)).2 ∧ (sig6 ((n : ℚ) + k / 10)).2 < 6 := ⟨by push_cast at h1; omega, by push_cast at h2; omega⟩
  simp only [he, and_self, if_true]
  apply fixedStr_int _ _ n k hk
  refine Eq.trans ?_ hv
  have e5 : (sig6 ((n : ℚ) + k / 10)).2 - 5 = -(((5 - (sig6 ((n : ℚ) + k / 10)).2).toNat : ℕ) : ℤ) := by
    rw [Int.toNat_of_nonneg (by push_cast at h2; omega)]; ring
  rw [e5, zpow_neg, zpow_natCast, div_eq_mul_inv]

/-- **C02**, the exact text: a G or M number below 100000 with at most one decimal is printed with a
leading zero exactly if it is below 10, and with the decimal only if that is not 0. -/
theorem C02_code_text (l : Char) (hl : kindOf l = some .code) (n k : ℕ) (hk : k < 10) (hn : n < 10 ^ 5) :
    Word.str ⟨l, .num (n + k / 10)⟩ =
      l :: ((if n < 10 then ['0'] else []) ++ Nat.toDigits 10 n ++ (if k = 0 then [] else ['.', Nat.digitChar k])) := by
  have hvs : Word.valueStr ⟨l, .num ((n : ℚ) + k / 10)⟩ = cleanCode (n + k / 10) := by
    unfold Word.valueStr; simp only [wordKind_eq_kindOf, hl]
  unfold Word.str
  rw [hvs]
  unfold cleanCode
  rw [fmtG_tenths n k hk hn]
  have hk' : (k : ℚ) / 10 < 1 := by
    have : (k : ℚ) < 10 := by exact_mod_cast hk
    linarith
  have hk0 : (0 : ℚ) ≤ k / 10 := by positivity
  by_cases h : n < 10
  · have : (n : ℚ) + 1 ≤ 10 := by exact_mod_cast h
    rw [if_pos h, if_pos (by linarith)]; simp
  · have : (10 : ℚ) ≤ n := by exact_mod_cast not_lt.1 h
    rw [if_neg h, if_neg (by linarith)]; simp

example : [Word.str ⟨'G', .num 0⟩, Word.str ⟨'G', .num 9⟩, Word.str ⟨'G', .num 10⟩, Word.str ⟨'G', .num (296/5)⟩].map
    String.ofList = ["G00", "G09", "G10", "G59.2"] := by decide +kernel

/-! ## Ties -/

/-- **C04**, sharper: below 999.9995 the number printed is the multiple of 0.001 nearest to the value,
and of two equally near ones the even one. -/
theorem C04_nearest (l : Char) (v : ℚ) (hl : kindOf l = some .flt) (hv : |v| < 999.9995) :
    ∃ k : ℤ, DenotesNum (Word.valueStr ⟨l, .num v⟩) (k / 1000) ∧
      (|v * 1000 - k| < 1 / 2 ∨ (|v * 1000 - k| = 1 / 2 ∧ k % 2 = 0)) := by
  have hv' : |v| < 999999.4995 := by norm_num at hv ⊢; linarith
  obtain ⟨neg, i, f, hi, di, df, htxt, hval⟩ := cleanFloat_fixed v hv'
  have hvs : Word.valueStr ⟨l, .num v⟩ = cleanFloat v := by
    unfold Word.valueStr; simp only [wordKind_eq_kindOf, hl]
  have hs := shown_small hv
  have hk : roundPlaces 3 v = (roundHalfEven (v * 10 ^ 3) : ℚ) / 1000 := by
    unfold roundPlaces; norm_num
  refine ⟨roundHalfEven (v * 10 ^ 3), ?_, ?_⟩
  · rw [← hk, ← hs, hvs, htxt, hval]
    refine ⟨[], i, f, blank_nil, di, df, neg, !(decide (f = [])), by simp, ?_, rfl⟩
    by_cases hf : f = [] <;> simp [hf]
  · have := roundHalfEven_spec (v * 10 ^ 3)
    norm_num at this ⊢
    exact this

example : Word.str ⟨'X', .num (1/2000)⟩ = "X0".toList := by decide +kernel
example : Word.str ⟨'X', .num (3/2000)⟩ = "X0.002".toList := by decide +kernel

/-! ## Exponents -/

/-- A positive number far from 1: six significant digits, then the exponent with its sign and at
least two digits. -/
theorem fmtGPos_exp {a : ℚ} (ha : 0 < a) (he : ¬ (-4 ≤ (sig6 a).2 ∧ (sig6 a).2 < 6)) :
    ∃ i f x, ∃ e : ℤ, e = (sig6 a).2 ∧ Digits i ∧ i.length = 1 ∧ Digits f ∧ f.length ≤ 5 ∧ Digits x ∧
      2 ≤ x.length ∧ digitsVal x = e.natAbs ∧
      fmtGPos a = i ++ (if f = [] then [] else '.' :: f) ++ 'e' :: (if e < 0 then '-' else '+') :: x ∧
      |(digitsVal i + (digitsVal f : ℚ) / 10 ^ f.length) * 10 ^ e - a| ≤ 0.000005 * a := by
  obtain ⟨s1, s2, -, -, -⟩ := sig6_spec ha
  have hs := fixedStr_num (sig6 a).1 5
  have hi : (sig6 a).1 / 10 ^ 5 < 10 := by omega
  have herr := sig6_err ha
  obtain ⟨b1, -⟩ := log_bounds ha
  refine ⟨_, _, padDigits 2 (sig6 a).2.natAbs, (sig6 a).2, rfl, hs.di, ?_, hs.df,
    hs.frac_le ⟨((sig6 a).1 : ℤ), by push_cast; rfl⟩, digits_padDigits _ _, ?_, digitsVal_padDigits _ _, ?_, ?_⟩
  · generalize (sig6 a).1 / 10 ^ 5 = v at hi
    interval_cases v <;> rfl
  · unfold padDigits
    simp only [List.length_append, List.length_replicate]
    omega
  · unfold fmtGPos
    simp only [he, if_false, expStr]
    rw [hs.eq]
  · rw [← hs.val]
    have e1 : ((sig6 a).1 : ℚ) / 10 ^ 5 * 10 ^ (sig6 a).2 = (sig6 a).1 * 10 ^ ((sig6 a).2 - 5) := by
      rw [zpow_sub₀ (by norm_num)]
      norm_num
      ring
    rw [e1]
    refine herr.trans ?_
    rw [zpow_sub₀ (by norm_num)]
    norm_num
    linarith

/-- **C05**, the exact form of very large and very small values: one digit, at most five decimals,
then the exponent, with the sign `-` for values below 1 and `+` otherwise. -/
theorem C05_exponent {q : ℚ} (hq : 999999.5 ≤ q ∨ (0 < q ∧ q < 0.00009)) :
    ∃ i f x, ∃ e : ℤ, Digits i ∧ i.length = 1 ∧ Digits f ∧ f.length ≤ 5 ∧ Digits x ∧ 2 ≤ x.length ∧
      digitsVal x = e.natAbs ∧
      fmtG q = i ++ (if f = [] then [] else '.' :: f) ++ 'e' :: (if q < 1 then '-' else '+') :: x ∧
      |(digitsVal i + (digitsVal f : ℚ) / 10 ^ f.length) * 10 ^ e - q| ≤ 0.000005 * q := by
  have h0 : 0 < q := by rcases hq with h | h; exacts [lt_of_lt_of_le (by norm_num) h, h.1]
  have hsm : q < 0.00009 → (sig6 q).2 < -4 := by
    intro h
    obtain ⟨s1, -, -, -, -⟩ := sig6_spec h0
    have herr := (abs_le.1 (sig6_err h0)).2
    obtain ⟨b1, -⟩ := log_bounds h0
    have hN : (10 : ℚ) ^ 5 ≤ (sig6 q).1 := by exact_mod_cast s1
    have hp : (0 : ℚ) < 10 ^ ((sig6 q).2 - 5) := by positivity
    have h1 : (10 : ℚ) ^ (sig6 q).2 = 10 ^ 5 * 10 ^ ((sig6 q).2 - 5) := by
      rw [zpow_sub₀ (by norm_num)]; norm_num; ring
    have h2 : (10 : ℚ) ^ (Int.log 10 q - 5) ≤ q / 10 ^ 5 := by
      rw [zpow_sub₀ (by norm_num)]; norm_num; linarith
    have h3 : (10 : ℚ) ^ (sig6 q).2 < 10 ^ (-4 : ℤ) := by
      have : (10 : ℚ) ^ (sig6 q).2 ≤ q + q / 10 ^ 5 := by nlinarith
      refine lt_of_le_of_lt this ?_
      norm_num at h ⊢
      linarith
    exact (zpow_lt_zpow_iff_right₀ (by norm_num)).1 h3
  have hbig : 999999.5 ≤ q → 6 ≤ (sig6 q).2 := fun h => by
    by_contra hc
    exact absurd ((sig6_exp_lt6 h0).1 (not_le.1 hc)) (not_lt.2 h)
  obtain ⟨i, f, x, e, he, a1, a2, a3, a4, a5, a6, a7, a8, a9⟩ := fmtGPos_exp h0 (by
    rcases hq with h | h
    · have := hbig h; omega
    · have := hsm h.2; omega)
  refine ⟨i, f, x, e, a1, a2, a3, a4, a5, a6, a7, ?_, a9⟩
  have hs : (e < 0) = (q < 1) := by
    rcases hq with h | h
    · have := hbig h
      exact propext ⟨fun _ => by omega, fun h' => by norm_num at h; linarith⟩
    · have := hsm h.2
      have h2 := h.2
      exact propext ⟨fun _ => by norm_num at h2; linarith, fun _ => by omega⟩
  unfold fmtG
  rw [if_neg h0.ne', if_neg h0.not_gt, a8]
  simp only [hs]

example : [fmtG 0.00001, fmtG 123456789, fmtG 1e120].map String.ofList = ["1e-05", "1.23457e+08", "1e+120"] := by
  decide +kernel

/-- **C02/C05**, disagreement: a G word made by a program (not read from a text) with a value below
0.0001 is printed with an exponent, and that text reads back as two words, `G1` and `E-5`. -/
theorem C05_tiny_code_refuted :
    String.ofList (Word.str ⟨'G', .num 0.00001⟩) = "G01e-05" ∧
    text2words "G01e-05".toList = .ok [⟨'G', .num 1⟩, ⟨'E', .num (-5)⟩] := by
  decide +kernel

/-! ## Blanked words (C47) -/

/-- **C47**, the text: a gcode whose word is left out as redundant is printed with blanks in place of
the word, one for each character, so what follows stays in its columns. -/
theorem C47_aligned (g : GCode) :
    ({ g with ws := true }).str = List.replicate g.word.str.length ' ' ++ ({ g with ws := false }).str.drop g.word.str.length ∧
    ({ g with ws := false }).str.take g.word.str.length = g.word.str := by
  unfold GCode.str GCode.sortedParams
  cases g.params <;> simp

example : String.ofList ({ (⟨.linearMove, ⟨'G', .num 1⟩, [⟨'X', .num 2⟩], true⟩ : GCode) with ws := true }).str = "    X2" := by
  decide +kernel

/-! ## Clean-up of block texts (C70) -/

/-- `Chunks t ts`: the text `t` consists of the non-empty blank-free chunks `ts`, in this order, with
blanks between any two of them and possibly before the first and after the last. -/
inductive Chunks : List Char → List (List Char) → Prop
  | nil {b} : Blank b → Chunks b []
  | cons {a s r ts} : Blank a → s ≠ [] → (∀ c ∈ s, isSpace c = false) → (∀ c ∈ r.head?, isSpace c = true) →
      Chunks r ts → Chunks (a ++ s ++ r) (s :: ts)

/-- Every text has chunks. -/
theorem chunks_exist (t : List Char) : ∃ ts, Chunks t ts := by
  induction t with
  | nil => exact ⟨[], .nil blank_nil⟩
  | cons c t ih =>
    obtain ⟨ts, h⟩ := ih
    by_cases hc : isSpace c = true
    · cases h with
      | nil hb => exact ⟨[], .nil (by intro x hx; rcases List.mem_cons.1 hx with rfl | hx; exacts [hc, hb x hx])⟩
      | cons ha hs hn hr h =>
        rename_i a s r ts
        refine ⟨s :: ts, ?_⟩
        have : c :: (a ++ s ++ r) = (c :: a) ++ s ++ r := rfl
        rw [this]
        exact .cons (by intro x hx; rcases List.mem_cons.1 hx with rfl | hx; exacts [hc, ha x hx]) hs hn hr h
    · have hc' : isSpace c = false := by simpa using hc
      cases h with
      | nil hb =>
        refine ⟨[[c]], ?_⟩
        have : c :: t = [] ++ [c] ++ t := rfl
        rw [this]
        exact .cons blank_nil (by simp) (by simpa using hc') (fun x hx => hb x (List.mem_of_mem_head? hx)) (.nil hb)
      | cons ha hs hn hr h =>
        rename_i a s r ts
        cases a with
        | nil =>
          refine ⟨(c :: s) :: ts, ?_⟩
          have : c :: ([] ++ s ++ r) = [] ++ (c :: s) ++ r := rfl
          rw [this]
          exact .cons blank_nil (by simp)
            (by intro x hx; rcases List.mem_cons.1 hx with rfl | hx; exacts [hc', hn x hx]) hr h
        | cons d a =>
          refine ⟨[c] :: s :: ts, ?_⟩
          have : c :: (d :: a ++ s ++ r) = [] ++ [c] ++ ((d :: a) ++ s ++ r) := rfl
          rw [this]
          exact .cons blank_nil (by simp) (by simpa using hc')
            (by intro x hx; simp at hx; subst hx; exact ha _ (by simp)) (.cons ha hs hn hr h)

theorem collapse_blanks {a : List Char} (ha : Blank a) (hne : a ≠ []) {r : List Char}
    (hr : ∀ c ∈ r.head?, isSpace c = false) : collapse (a ++ r) = ' ' :: collapse r := by
  induction a with
  | nil => exact absurd rfl hne
  | cons c a ih =>
    have hc : isSpace c = true := ha c (by simp)
    cases a with
    | nil =>
      rw [List.cons_append, List.nil_append]
      cases r with
      | nil => simp [collapse, hc]
      | cons d r =>
        have hd : isSpace d = false := hr d (by simp)
        rw [collapse]
        simp only [hc, if_true, hd, Bool.false_eq_true, if_false]
    | cons d a =>
      have := ih (fun x hx => ha x (by simp [List.mem_cons.1 hx])) (by simp)
      have hd : isSpace d = true := ha d (by simp)
      rw [List.cons_append, List.cons_append, collapse]
      simp only [hc, hd, if_true]
      exact this

theorem chunks_tail {r : List Char} {ts} (h : Chunks r ts) (hr : ∀ c ∈ r.head?, isSpace c = true) :
    ∃ m b, r = m ++ b ∧ Blank b ∧ (∀ c ∈ m.getLast?, isSpace c = false) ∧
      collapse m = ts.flatMap (fun s => ' ' :: s) := by
  induction h with
  | nil hb => exact ⟨[], _, rfl, hb, by simp, rfl⟩
  | @cons a s r ts ha hs hn hr' _ ih =>
    obtain ⟨m, b, rfl, hb, hl, hm⟩ := ih hr'
    have hane : a ≠ [] := by
      rintro rfl
      obtain ⟨c, s', rfl⟩ := List.exists_cons_of_ne_nil hs
      have h1 := hr c (by simp)
      have h2 := hn c (by simp)
      rw [h1] at h2; cases h2
    refine ⟨a ++ (s ++ m), b, by simp, hb, ?_, ?_⟩
    · intro c hc
      cases m with
      | nil =>
        rw [List.append_nil, List.getLast?_append_of_ne_nil _ hs] at hc
        exact hn c (List.mem_of_getLast? hc)
      | cons d m =>
        rw [← List.append_assoc, List.getLast?_append_of_ne_nil _ (by simp)] at hc
        exact hl c hc
    · rw [collapse_blanks ha hane, collapse_app hn, hm]
      · rfl
      · intro c hc
        obtain ⟨d, s', rfl⟩ := List.exists_cons_of_ne_nil hs
        simp at hc; subst hc
        exact hn _ (by simp)

theorem join_flatMap (s : List Char) (ts : List (List Char)) :
    joinWith [' '] (s :: ts) = s ++ ts.flatMap (fun x => ' ' :: x) := by
  induction ts generalizing s with
  | nil => simp [joinWith]
  | cons t ts ih =>
    have : joinWith [' '] (s :: t :: ts) = s ++ [' '] ++ joinWith [' '] (t :: ts) := rfl
    rw [this, ih]
    simp

/-- **C70** The text of a block is its chunks with single spaces between them. -/
theorem C70_chunks {t : List Char} {ts : List (List Char)} (h : Chunks t ts) :
    cleanText t = joinWith [' '] ts := by
  unfold cleanText
  cases h with
  | nil hb =>
    have := strip_eval (s := []) blank_nil hb (by simp) (by simp)
    rw [List.append_nil, List.nil_append] at this
    rw [this]; rfl
  | @cons a s r ts ha hs hn hr h =>
    obtain ⟨m, b, rfl, hb, hl, hm⟩ := chunks_tail h hr
    have e : a ++ s ++ (m ++ b) = a ++ (s ++ m) ++ b := by simp
    rw [e, strip_eval ha hb, collapse_app hn, hm, join_flatMap]
    · intro c hc
      obtain ⟨d, s', rfl⟩ := List.exists_cons_of_ne_nil hs
      simp at hc; subst hc
      exact hn _ (by simp)
    · intro c hc
      cases m with
      | nil =>
        rw [List.append_nil] at hc
        exact hn c (List.mem_of_getLast? hc)
      | cons d m =>
        rw [List.getLast?_append_of_ne_nil _ (by simp)] at hc
        exact hl c hc

/-- **C70** Two texts with the same chunks make the same block. -/
theorem C70_same_block {t u : List Char} {ts} (ht : Chunks t ts) (hu : Chunks u ts) (v : Bool) :
    Block.ofText t v = Block.ofText u v := by
  unfold Block.ofText
  rw [(C70_chunks ht).trans (C70_chunks hu).symm]

/-- Chunks joined by single spaces are chunks. -/
theorem chunks_join {ts : List (List Char)} (hs : ∀ s ∈ ts, s ≠ [] ∧ ∀ c ∈ s, isSpace c = false) :
    Chunks (joinWith [' '] ts) ts := by
  have tail : ∀ ts : List (List Char), (∀ s ∈ ts, s ≠ [] ∧ ∀ c ∈ s, isSpace c = false) →
      Chunks (ts.flatMap (fun x => ' ' :: x)) ts ∧
      ∀ c ∈ (ts.flatMap (fun x => ' ' :: x)).head?, isSpace c = true := by
    intro ts
    induction ts with
    | nil => exact fun _ => ⟨.nil blank_nil, by simp⟩
    | cons s ts ih =>
      intro h
      obtain ⟨h1, h2⟩ := ih (fun x hx => h x (by simp [hx]))
      refine ⟨?_, by simp; decide⟩
      have e : (s :: ts).flatMap (fun x => ' ' :: x) = [' '] ++ s ++ ts.flatMap (fun x => ' ' :: x) := by simp
      rw [e]
      exact .cons (by intro c hc; simp at hc; subst hc; decide) (h s (by simp)).1 (h s (by simp)).2 h2 h1
  cases ts with
  | nil => exact .nil blank_nil
  | cons s ts =>
    rw [join_flatMap]
    obtain ⟨h1, h2⟩ := tail ts (fun x hx => hs x (by simp [hx]))
    exact .cons (a := []) blank_nil (hs s (by simp)).1 (hs s (by simp)).2 h2 h1

theorem Chunks.sound {t : List Char} {ts} (h : Chunks t ts) : ∀ s ∈ ts, s ≠ [] ∧ ∀ c ∈ s, isSpace c = false := by
  induction h with
  | nil => simp
  | cons _ h1 h2 _ _ ih =>
    intro x hx
    rcases List.mem_cons.1 hx with rfl | hx
    exacts [⟨h1, h2⟩, ih x hx]

/-- **C70** Cleaning up a cleaned-up text changes nothing. -/
theorem C70_idempotent (t : List Char) : cleanText (cleanText t) = cleanText t := by
  obtain ⟨ts, h⟩ := chunks_exist t
  rw [C70_chunks h]
  exact C70_chunks (chunks_join h.sound)

theorem Chunks.filter {t : List Char} {ts} (h : Chunks t ts) : t.filter (fun c => !isSpace c) = ts.flatten := by
  have blanks : ∀ {b : List Char}, Blank b → b.filter (fun c => !isSpace c) = [] := by
    intro b hb
    rw [List.filter_eq_nil_iff]
    intro c hc
    simp [hb c hc]
  induction h with
  | nil hb => exact blanks hb
  | cons ha _ hn _ _ ih =>
    rw [List.filter_append, List.filter_append, blanks ha, ih, List.filter_eq_self.2 (fun c hc => by simp [hn c hc])]
    rfl

theorem collapse_single (s : List Char) : ¬ [' ', ' '] <:+: collapse s := by
  have hsp : isSpace ' ' = true := by decide
  induction s with
  | nil => simp [collapse]
  | cons c cs ih =>
    by_cases hc : isSpace c = true
    · cases cs with
      | nil =>
        simp only [collapse, hc, if_true]
        decide
      | cons d r =>
        by_cases hd : isSpace d = true
        · rw [collapse]
          simp only [hc, hd, if_true]
          exact ih
        · have e : collapse (c :: d :: r) = ' ' :: collapse (d :: r) := by
            rw [collapse]; simp [hc, hd]
          have e2 : collapse (d :: r) = d :: collapse r := by
            conv_lhs => rw [collapse.eq_def]
            simp [hd]
          rw [e, List.infix_cons_iff]
          rintro (h | h)
          · rw [e2, List.cons_prefix_cons, List.cons_prefix_cons] at h
            exact hd (h.2.1 ▸ hsp)
          · exact ih h
    · have e : collapse (c :: cs) = c :: collapse cs := by
        conv_lhs => rw [collapse.eq_def]
        simp [hc]
      rw [e, List.infix_cons_iff]
      rintro (h | h)
      · rw [List.cons_prefix_cons] at h
        exact hc (h.1 ▸ hsp)
      · exact ih h

/-- **C70** The cleaned-up text keeps all characters that are not blank, in their order; the only
blank in it is the space, which is never first, last or next to another. -/
theorem C70_characters (t : List Char) :
    (cleanText t).filter (fun c => !isSpace c) = t.filter (fun c => !isSpace c) ∧
    (∀ c ∈ cleanText t, isSpace c = true → c = ' ') ∧
    (∀ c ∈ (cleanText t).head?, isSpace c = false) ∧
    (∀ c ∈ (cleanText t).getLast?, isSpace c = false) ∧
    ¬ [' ', ' '] <:+: cleanText t := by
  obtain ⟨ts, h⟩ := chunks_exist t
  have hs := h.sound
  have hj := chunks_join hs
  refine ⟨?_, ?_, ?_, ?_, collapse_single _⟩
  · rw [C70_chunks h, hj.filter, h.filter]
  · rw [C70_chunks h]
    intro c hc hb
    cases ts with
    | nil => simp [joinWith] at hc
    | cons s ts =>
      rw [join_flatMap, List.mem_append, List.mem_flatMap] at hc
      rcases hc with hc | ⟨x, hx, hc⟩
      · rw [(hs s (by simp)).2 c hc] at hb; cases hb
      · rcases List.mem_cons.1 hc with hc | hc
        · exact hc
        · rw [(hs x (by simp [hx])).2 c hc] at hb; cases hb
  · rw [C70_chunks h]; exact join_head hs
  · rw [C70_chunks h]; exact join_last hs

example : String.ofList (cleanText "  O12 \t\n 3  A\u00a0 B ".toList) = "O12 3 A B" := by decide +kernel

end Pygcode
