import Verif.Lemmas.Print2
import Verif.Lemmas.Case

/-!
# Properties C01–C09: words (`words.py`, `dialects/linuxcnc.py`)
-/

namespace Pygcode.Props
open Pygcode Pygcode.Spec

/-! ## C01: `text2words` accepts exactly its grammar -/

/-- Words are yielded exactly for the texts of the grammar, and they are the words the grammar
gives. -/
theorem C01_ok_iff (t : List Char) (ws : List Word) : text2words t = .ok ws ↔ Lexes t ws := by
  have h := lexAux_spec (t.length + 1) t (by omega)
  exact ⟨h.1 ws, h.2.1 ws⟩

/-- In every other case it raises `GCodeWordStrError`; no other exception escapes (in particular
the modelled loop always ends: the `fuel` error does not occur). -/
theorem C01_error_iff (t : List Char) (e : Err) :
    text2words t = .error e ↔ e = .wordStr ∧ ∀ ws, ¬ Lexes t ws := by
  have h := lexAux_spec (t.length + 1) t (by omega)
  constructor
  · intro he
    refine ⟨h.2.2 e he, fun ws hl => ?_⟩
    rw [(C01_ok_iff t ws).2 hl] at he; cases he
  · rintro ⟨rfl, hno⟩
    cases ht : text2words t with
    | ok ws => exact absurd ((C01_ok_iff t ws).1 ht) (hno ws)
    | error e => rw [h.2.2 e ht]

/-- The grammar is unambiguous: a text stands for at most one word list. -/
theorem C01_unambiguous (t : List Char) (ws ws' : List Word) (h : Lexes t ws) (h' : Lexes t ws') :
    ws = ws' := by
  have a := (C01_ok_iff t ws).2 h
  rw [(C01_ok_iff t ws').2 h'] at a
  cases a; rfl

example : text2words "g1 x-2.50 T03 n4".toList =
    .ok [⟨'G', .num 1⟩, ⟨'X', .num (-5/2)⟩, ⟨'T', .str "03".toList⟩, ⟨'N', .num 4⟩] := by
  decide +kernel
example : text2words "G1 X".toList = .error .wordStr := by decide +kernel
example : text2words "G1 %".toList = .error .wordStr := by decide +kernel
example : ∃ ws, Lexes "G1 X.5".toList ws :=
  ⟨[⟨'G', .num 1⟩, ⟨'X', .num (1/2)⟩], (C01_ok_iff _ _).1 (by decide +kernel)⟩

/-! ## C02, C03: printing and parsing -/

theorem noExtend_nil : NoExtend [] := by intro x hx; simp at hx

theorem noExtend_spaced {ws : List Word} {t : List Char} (h : Spaced ws t)
    (hp : ∀ w ∈ ws, Printable w) : NoExtend t := by
  have hsep : ∀ (sep r : List Char), Blank sep → NoExtend r → NoExtend (sep ++ r) := by
    intro sep r hs hr
    cases sep with
    | nil => exact hr
    | cons a sep =>
      intro x hx; simp at hx; subst hx
      have h1 := hs a (by simp)
      refine ⟨?_, ?_⟩
      · by_contra hn
        rw [not_space_of_digit (by simpa using hn)] at h1; cases h1
      · rintro rfl; simp [dot_not_space] at h1
  have hword : ∀ (w : Word) (r : List Char), Printable w → NoExtend (w.str ++ r) := by
    intro w r hw x hx
    simp only [Word.str, List.cons_append, List.head?_cons, Option.mem_def, Option.some.injEq] at hx
    subst hx
    have hk : kindOf w.letter ≠ none := by
      intro h0; unfold Printable at hw; simp [h0] at hw
    constructor
    · by_contra hd
      apply hk
      rw [← wordKind_eq_kindOf]
      have hd' : w.letter.isDigit = true := by simpa using hd
      unfold wordKind
      split <;> first | rfl | (rename_i he; rw [he] at hd'; exact absurd hd' (by decide))
    · intro hd
      rw [hd] at hk
      exact hk (by decide)
  cases h with
  | nil hb => have := hsep t [] hb noExtend_nil; simpa using this
  | @cons sep w ws t hs hO hr =>
    rw [List.append_assoc]
    exact hsep _ _ hs.1 (hword w t (hp w (by simp)))
  | @name sep w hs hO =>
    have := hsep sep (w.str ++ []) hs.1 (hword w [] (hp w (by simp)))
    simpa using this

theorem printable_letter {w : Word} (h : Printable w) : IsLetter w.letter ∧ w.letter.toUpper = w.letter := by
  have hk : kindOf w.letter ≠ none := by
    intro h0; unfold Printable at h; simp [h0] at h
  rw [← wordKind_eq_kindOf] at hk
  generalize w.letter = l at hk ⊢
  unfold IsLetter
  unfold wordKind at hk
  split at hk <;> first | (exfalso; exact hk rfl) | decide

theorem sep_junk {sep : List Char} (h : Sep sep) : ∀ j ∈ sep, ¬ IsLetter j ∧ j ≠ '\n' :=
  fun j hj => ⟨not_letter_of_space (h.1 j hj), h.2 j hj⟩

/-- **C03**: printed words, with any blanks (or none) around them, are read back as those words. -/
theorem C03_spaced (ws : List Word) (t : List Char) (hp : ∀ w ∈ ws, Printable w)
    (h : Spaced ws t) : text2words t = .ok ws := by
  rw [C01_ok_iff]
  induction h with
  | nil hb => exact .nil hb
  | @cons sep w ws t hs hO hr ih =>
    have hw := hp w (by simp)
    obtain ⟨hl, hu⟩ := printable_letter hw
    have hr' := noExtend_spaced hr (fun w' hw' => hp w' (by simp [hw']))
    obtain ⟨k, hk, hm, hv⟩ := printable_match hw hr' (fun h => absurd h hO)
    have hlong := matchValue_iff.1 hm
    have hcons := Lexes.cons (sep_junk hs) hl
      (by rw [hu, ← wordKind_eq_kindOf]; exact hk) hlong
      ((denotesVal_iff hlong.2.1).2 rfl) (ih (fun w' hw' => hp w' (by simp [hw'])))
    rw [hu, hv] at hcons
    simpa [Word.str, List.append_assoc] using hcons
  | @name sep w hs hO =>
    have hw := hp w (by simp)
    obtain ⟨hl, hu⟩ := printable_letter hw
    obtain ⟨k, hk, hm, hv⟩ := printable_match hw noExtend_nil (fun _ => rfl)
    have hlong := matchValue_iff.1 hm
    have hcons := Lexes.cons (sep_junk hs) hl
      (by rw [hu, ← wordKind_eq_kindOf]; exact hk) hlong
      ((denotesVal_iff hlong.2.1).2 rfl) (Lexes.nil blank_nil)
    rw [hu, hv] at hcons
    simpa [Word.str, List.append_assoc] using hcons

theorem sep_nil : Spec.Sep [] := by simp [Spec.Sep, Blank]

/-- **C02**: a printable word is read back from its own text, as itself. -/
theorem C02_roundtrip (w : Word) (h : Printable w) : text2words w.str = .ok [w] := by
  apply C03_spaced [w] w.str (by simpa using h)
  by_cases hO : w.letter = 'O'
  · exact Spaced.name (sep := []) sep_nil hO
  · have := Spaced.cons (t := []) sep_nil hO (.nil blank_nil)
    simpa using this

/-- C02 for `str2word`. -/
theorem C02_str2word (w : Word) (h : Printable w) : str2word w.str = .ok (some w) := by
  unfold str2word; rw [C02_roundtrip w h]

/-- **C03**: words joined with single spaces, and the same with every blank removed (what
`pygcode-norm --rm_whitespace` prints), are read as the same words.  Tool values must not
contain blanks and there must be no program name. -/
theorem C03_remove_whitespace (ws : List Word) (hp : ∀ w ∈ ws, Printable w)
    (hO : ∀ w ∈ ws, w.letter ≠ 'O') :
    text2words (joinWith [' '] (ws.map Word.str)) = .ok ws ∧
    text2words (ws.map Word.str).flatten = .ok ws := by
  have hsp : Sep [' '] := ⟨by intro c hc; simp at hc; subst hc; decide, by simp⟩
  have h1 : ∀ (ws : List Word) (sep : List Char), Sep sep → (∀ w ∈ ws, w.letter ≠ 'O') → ws ≠ [] →
      Spaced ws (sep ++ joinWith [' '] (ws.map Word.str)) := by
    intro ws
    induction ws with
    | nil => intro _ _ _ h; exact absurd rfl h
    | cons w ws ih =>
      intro sep hs hO _
      cases ws with
      | nil =>
        have := Spaced.cons (t := []) hs (hO w (by simp)) (.nil blank_nil)
        simpa [joinWith] using this
      | cons w2 ws =>
        have := Spaced.cons hs (hO w (by simp)) (ih [' '] hsp (fun w' hw' => hO w' (by simp_all)) (by simp))
        simpa [joinWith, List.append_assoc] using this
  have h2 : Spaced ws (ws.map Word.str).flatten := by
    clear hp
    induction ws with
    | nil => exact .nil blank_nil
    | cons w ws ih =>
      have := Spaced.cons sep_nil (hO w (by simp)) (ih (fun w' hw' => hO w' (by simp [hw'])))
      simpa using this
  refine ⟨?_, C03_spaced ws _ hp h2⟩
  cases ws with
  | nil => rfl
  | cons w ws =>
    have := h1 (w :: ws) [] sep_nil hO (by simp)
    exact C03_spaced _ _ hp (by simpa using this)

/-- Removing the blanks from the printed words (no blanks inside tool values) really is the
concatenation used in `C03_remove_whitespace`. -/
theorem C03_filter_blanks (ws : List Word) (hb : ∀ w ∈ ws, ∀ c ∈ w.str, isSpace c = false) :
    (joinWith [' '] (ws.map Word.str)).filter (fun c => !isSpace c) = (ws.map Word.str).flatten := by
  have hf : ∀ w ∈ ws, w.str.filter (fun c => !isSpace c) = w.str := by
    intro w hw
    rw [List.filter_eq_self]
    intro c hc; simp [hb w hw c hc]
  have hsp : isSpace ' ' = true := by decide
  induction ws with
  | nil => rfl
  | cons w ws ih =>
    have ih' := ih (fun w' h' => hb w' (by simp [h'])) (fun w' h' => hf w' (by simp [h']))
    cases ws with
    | nil => simp [joinWith, hf w (by simp)]
    | cons w2 ws =>
      simp only [List.map_cons, joinWith] at ih' ⊢
      simp only [List.filter_append, hf w (by simp), ih', List.flatten_cons]
      simp [hsp]

example : Printable ⟨'X', .num (-12345/1000)⟩ :=
  ⟨-12345, 3, by norm_num, by norm_num, by norm_num⟩
example : Printable ⟨'G', .num (591/10)⟩ := ⟨591, 1, by norm_num, by norm_num, by norm_num⟩
example : text2words "X-12.345".toList = .ok [⟨'X', .num (-12345/1000)⟩] := by decide +kernel
example : Word.str ⟨'X', .num (-12345/1000)⟩ = "X-12.345".toList := by decide +kernel
example : Word.str ⟨'G', .num 1⟩ = "G01".toList := by decide +kernel
example : Word.str ⟨'G', .num (5/10)⟩ = "G00.5".toList := by decide +kernel
example : text2words "G01X1Y-.5T007\t N12".toList =
    .ok [⟨'G', .num 1⟩, ⟨'X', .num 1⟩, ⟨'Y', .num (-1/2)⟩, ⟨'T', .str "007".toList⟩, ⟨'N', .num 12⟩] := by
  decide +kernel

/-! ## C04, C05: values that are not exactly printable -/

theorem cleanFloat_fixed (v : ℚ) (hv : |v| < 999999.4995) :
    ∃ neg : Bool, ∃ i f, i ≠ [] ∧ Digits i ∧ Digits f ∧
      cleanFloat v = (if neg then ['-'] else []) ++ i ++ (if f = [] then [] else '.' :: f) ∧
      shown (roundPlaces 3 v) =
        (if neg then -1 else 1) * (digitsVal i + (digitsVal f : ℚ) / 10 ^ f.length) := by
  have h1 := (round3_threshold v).2 hv
  apply fmtG_fixed
  rcases round3_small v with h | h
  · exact .inl h
  · exact .inr ⟨h, h1⟩

/-- **C05** (what holds): a float word below the threshold is read back as one word with its
letter. -/
theorem C05_readback_partial (l : Char) (v : ℚ) (hl : kindOf l = some .flt)
    (hv : |v| < 999999.4995) : ∃ p, text2words (Word.str ⟨l, .num v⟩) = .ok [⟨l, .num p⟩] ∧
      DenotesNum (Word.valueStr ⟨l, .num v⟩) p := by
  obtain ⟨neg, i, f, hi, di, df, htxt, hval⟩ := cleanFloat_fixed v hv
  have hvs : Word.valueStr ⟨l, .num v⟩ = cleanFloat v := by
    unfold Word.valueStr; simp only [wordKind_eq_kindOf, hl]
  have hP : Printable ⟨l, .num 0⟩ := by
    unfold Printable; simp only [hl]; exact ⟨0, 0, by norm_num, by norm_num, by norm_num⟩
  obtain ⟨hlet, hu⟩ := printable_letter hP
  simp only at hlet hu
  have hm : matchValue .flt (cleanFloat v ++ []) = some (cleanFloat v, []) := by
    rw [htxt]; exact matchFloat_numStr hi di df noExtend_nil
  rw [List.append_nil] at hm
  have hlong := matchValue_iff.1 hm
  refine ⟨numText (cleanFloat v), ?_, ?_⟩
  · rw [C01_ok_iff]
    have := Lexes.cons (junk := []) (by simp) hlet (by rw [hu]; exact hl) hlong
      ((denotesVal_iff hlong.2.1).2 rfl) (Lexes.nil blank_nil)
    rw [hu] at this
    simp only [Word.str, hvs]
    exact this
  · rw [hvs]
    obtain ⟨q, hq, hd⟩ := (denotesVal_iff hlong.2.1 (x := .num (numText (cleanFloat v)))).2 rfl
    cases hq; exact hd

/-- **C05** (violated part): from the threshold on, the text of a float word is refused by
`text2words`. -/
theorem C05_unreadable (l : Char) (v : ℚ) (hl : kindOf l = some .flt)
    (hv : 999999.4995 ≤ |v|) : text2words (Word.str ⟨l, .num v⟩) = .error .wordStr := by
  have h1 : 999999.5 ≤ |roundPlaces 3 v| := by
    by_contra hn
    exact absurd ((round3_threshold v).1 (not_le.1 hn)) (not_lt.2 hv)
  obtain ⟨neg, i, f, x, hi, di, df, htxt⟩ := fmtG_sci h1
  have hvs : Word.valueStr ⟨l, .num v⟩ = cleanFloat v := by
    unfold Word.valueStr; simp only [wordKind_eq_kindOf, hl]
  have hP : Printable ⟨l, .num 0⟩ := by
    unfold Printable; simp only [hl]; exact ⟨0, 0, by norm_num, by norm_num, by norm_num⟩
  obtain ⟨hlet, hu⟩ := printable_letter hP
  simp only at hlet hu
  have hne : NoExtend ('e' :: '+' :: x) := by
    intro c hc; simp at hc; subst hc; decide
  have hm : matchValue .flt (cleanFloat v) =
      some ((if neg then ['-'] else []) ++ i ++ (if f = [] then [] else '.' :: f), 'e' :: '+' :: x) := by
    unfold cleanFloat
    rw [htxt]; exact matchFloat_numStr hi di df hne
  unfold text2words
  simp only [Word.str, hvs]
  have hstep := lexAux_step (n := (cleanFloat v).length + 1) (junk := []) (s := cleanFloat v) (by simp) hlet
    (k := .flt) (by rw [hu, wordKind_eq_kindOf]; exact hl) hm
  rw [List.nil_append] at hstep
  have hlen : (l :: cleanFloat v).length + 1 = (cleanFloat v).length + 1 + 1 := by simp
  rw [hlen, hstep]
  have hfail : lexAux ((cleanFloat v).length + 1) ('e' :: '+' :: x) = .error .wordStr := by
    rw [lexAux]
    have : nextLetter ('e' :: '+' :: x) = some ('E', '+' :: x) := by
      unfold nextLetter; rw [if_pos (by decide)]; rfl
    rw [this]
    have hk : wordKind 'E' = some .flt := rfl
    have hmf : matchValue .flt ('+' :: x) = none := by
      have e1 : isSpace '+' = false := by decide
      have e2 : '+'.isDigit = false := by decide
      simp [matchValue, matchFloat, matchMinus, e1, e2]
    simp only [hk, hmf]
  rw [hfail]

/-- The exact range in which C05 holds. -/
theorem C05_readback_iff (l : Char) (v : ℚ) (hl : kindOf l = some .flt) :
    (∃ p, text2words (Word.str ⟨l, .num v⟩) = .ok [⟨l, .num p⟩]) ↔ |v| < 999999.4995 := by
  constructor
  · rintro ⟨p, hp⟩
    by_contra hn
    rw [C05_unreadable l v hl (not_lt.1 hn)] at hp
    cases hp
  · intro h
    obtain ⟨p, hp, -⟩ := C05_readback_partial l v hl h
    exact ⟨p, hp⟩

/-- **C05 is violated**: `str(Word('X', 1000000))` is `X1e+06`, which cannot be read. -/
theorem C05_refuted : ¬ ∀ (l : Char) (v : ℚ), kindOf l = some .flt →
    ∃ p, text2words (Word.str ⟨l, .num v⟩) = .ok [⟨l, .num p⟩] := by
  intro h
  obtain ⟨p, hp⟩ := h 'X' 1000000 (by decide)
  rw [C05_unreadable 'X' 1000000 (by decide) (by norm_num)] at hp
  cases hp

example : Word.str ⟨'X', .num 1000000⟩ = "X1e+06".toList := by decide +kernel

/-- **C04**: the number printed differs from the value by at most half a unit of the third decimal
plus half a unit of the sixth significant digit. -/
theorem C04_error_bound (l : Char) (v : ℚ) (e : ℤ) (hl : kindOf l = some .flt)
    (hv : |v| < 999999.4995) (he : (10 : ℚ) ^ e ≤ |v| ∧ |v| < 10 ^ (e + 1)) :
    ∃ p, DenotesNum (Word.valueStr ⟨l, .num v⟩) p ∧ |p - v| ≤ 0.0005 + 0.5 * 10 ^ (e - 5) := by
  obtain ⟨neg, i, f, hi, di, df, htxt, hval⟩ := cleanFloat_fixed v hv
  have hvs : Word.valueStr ⟨l, .num v⟩ = cleanFloat v := by
    unfold Word.valueStr; simp only [wordKind_eq_kindOf, hl]
  refine ⟨shown (roundPlaces 3 v), ?_, ?_⟩
  · rw [hvs, htxt, hval]
    refine ⟨[], i, f, blank_nil, di, df, neg, !(decide (f = [])), by simp, ?_, rfl⟩
    by_cases hf : f = [] <;> simp [hf]
  · rcases le_or_gt 0 v with h0 | h0
    · rw [abs_of_nonneg h0] at hv he
      exact shown_err h0 hv he.1 he.2
    · rw [abs_of_neg h0] at hv he
      have := shown_err (by linarith) hv he.1 he.2
      rw [roundPlaces_neg, shown_neg] at this
      rw [← abs_neg]
      convert this using 2; ring

/-- Below 1000 the six significant digits keep all three decimals. -/
theorem shown_small {v : ℚ} (hv : |v| < 999.9995) : shown (roundPlaces 3 v) = roundPlaces 3 v := by
  have hlt : roundHalfEven (|v| * 10 ^ 3) < 1000000 := by
    rw [round_lt_iff_even (by norm_num)]; norm_num at hv ⊢; linarith
  have key : ∀ u : ℚ, 0 ≤ u → roundHalfEven (u * 10 ^ 3) < 1000000 →
      shown (roundPlaces 3 u) = roundPlaces 3 u := by
    intro u hu hlt
    have h0 : 0 ≤ roundHalfEven (u * 10 ^ 3) := by
      have := roundHalfEven_mono (show (0 : ℚ) ≤ u * 10 ^ 3 by positivity)
      have hz : roundHalfEven (0 : ℚ) = 0 := by simpa using roundHalfEven_int (K := ℚ) 0
      rwa [hz] at this
    have hc : roundPlaces 3 u = ((roundHalfEven (u * 10 ^ 3)).toNat : ℚ) / 10 ^ 3 := by
      unfold roundPlaces
      have : (((roundHalfEven (u * 10 ^ 3)).toNat : ℤ) : ℚ) = (roundHalfEven (u * 10 ^ 3) : ℚ) := by
        rw [Int.toNat_of_nonneg h0]
      rw [← this, Int.cast_natCast]
    rw [hc]; exact shown_pos_exact (by omega)
  rcases le_or_gt 0 v with h0 | h0
  · rw [abs_of_nonneg h0] at hlt; exact key v h0 hlt
  · rw [abs_of_neg h0] at hlt
    have := key (-v) (by linarith) hlt
    rw [roundPlaces_neg, shown_neg] at this
    linarith

/-- C04 below 1000: the only error is the rounding to three decimals. -/
theorem C04_error_small (l : Char) (v : ℚ) (hl : kindOf l = some .flt) (hv : |v| < 999.9995) :
    ∃ p, DenotesNum (Word.valueStr ⟨l, .num v⟩) p ∧ |p - v| ≤ 0.0005 := by
  have hv' : |v| < 999999.4995 := by norm_num at hv ⊢; linarith
  obtain ⟨neg, i, f, hi, di, df, htxt, hval⟩ := cleanFloat_fixed v hv'
  have hvs : Word.valueStr ⟨l, .num v⟩ = cleanFloat v := by
    unfold Word.valueStr; simp only [wordKind_eq_kindOf, hl]
  refine ⟨shown (roundPlaces 3 v), ?_, ?_⟩
  · rw [hvs, htxt, hval]
    refine ⟨[], i, f, blank_nil, di, df, neg, !(decide (f = [])), by simp, ?_, rfl⟩
    by_cases hf : f = [] <;> simp [hf]
  · rw [shown_small hv, abs_sub_comm]
    have := roundPlaces_err 3 v
    norm_num at this ⊢; exact this

example : Word.str ⟨'X', .num (123456789/1000)⟩ = "X123457".toList := by decide +kernel
example : Word.str ⟨'X', .num (2/3)⟩ = "X0.667".toList := by decide +kernel

/-! ## C06: case of letters -/

/-- **C06**: texts that differ only in the case of letters give the same words (and fail
together), if there is no program name among the words. -/
theorem C06_case (t t' : List Char) (h : SameUpToCase t t')
    (hO : ∀ ws, text2words t = .ok ws → ∀ w ∈ ws, w.letter ≠ 'O') : text2words t' = text2words t := by
  have h1 := text2words_up t
  have h2 := text2words_up t'
  rw [← sameUpToCase_up h, h1] at h2
  cases ht : text2words t with
  | error e =>
    cases ht' : text2words t' with
    | error e' => rw [ht, ht'] at h2; simp only [Except.map] at h2; cases h2; rfl
    | ok ws' => rw [ht, ht'] at h2; cases h2
  | ok ws =>
    cases ht' : text2words t' with
    | error e' => rw [ht, ht'] at h2; cases h2
    | ok ws' =>
      rw [ht, ht'] at h2
      simp only [Except.map, Except.ok.injEq] at h2
      have hup : ∀ w : Word, (upWord w).letter = w.letter := by
        intro w; unfold upWord; split <;> simp_all
      have hid : ∀ w : Word, w.letter ≠ 'O' → upWord w = w := by
        intro w hw; unfold upWord; split
        · rename_i h _; exact absurd h hw
        · rfl
      have hlet : ∀ w ∈ ws', w.letter ≠ 'O' := by
        intro w hw hwO
        have : (upWord w) ∈ ws'.map upWord := List.mem_map_of_mem hw
        rw [← h2] at this
        obtain ⟨w0, hw0, he⟩ := List.mem_map.1 this
        have := congrArg Word.letter he
        rw [hup, hup, hwO] at this
        exact hO ws ht w0 hw0 this
      have e1 : ws.map upWord = ws := by
        conv_rhs => rw [← List.map_id ws]
        exact List.map_congr_left (fun w hw => hid w (hO ws ht w hw))
      have e2 : ws'.map upWord = ws' := by
        conv_rhs => rw [← List.map_id ws']
        exact List.map_congr_left (fun w hw => hid w (hlet w hw))
      rw [e1, e2] at h2
      rw [h2]

/-- C06 with program names: letters and numbers are the same, only the name's own text may differ
in case; and one text is refused iff the other is. -/
theorem C06_case_names (t t' : List Char) (h : SameUpToCase t t') :
    (∀ e, text2words t = .error e ↔ text2words t' = .error e) ∧
    (∀ ws ws', text2words t = .ok ws → text2words t' = .ok ws' →
      List.Forall₂ (fun w w' : Word => w.letter = w'.letter ∧ (w.val = w'.val ∨
        (w.letter = 'O' ∧ ∃ s s', w.val = .str s ∧ w'.val = .str s' ∧
          s.map Char.toUpper = s'.map Char.toUpper))) ws ws') := by
  have h1 := text2words_up t
  have h2 := text2words_up t'
  rw [← sameUpToCase_up h, h1] at h2
  constructor
  · intro e
    cases ht : text2words t <;> cases ht' : text2words t' <;> rw [ht, ht'] at h2 <;>
      simp_all [Except.map]
  · intro ws ws' ht ht'
    rw [ht, ht'] at h2
    simp only [Except.map, Except.ok.injEq] at h2
    clear ht ht' h1 h
    induction ws generalizing ws' with
    | nil => cases ws' with
      | nil => exact .nil
      | cons _ _ => simp at h2
    | cons w ws ih =>
      cases ws' with
      | nil => simp at h2
      | cons w' ws' =>
        simp only [List.map_cons, List.cons.injEq] at h2
        refine .cons ?_ (ih ws' h2.2)
        have h3 := h2.1
        obtain ⟨l, v⟩ := w
        obtain ⟨l', v'⟩ := w'
        unfold upWord at h3
        simp only at h3
        split at h3 <;> split at h3
        · simp only [Word.mk.injEq, Val.str.injEq, true_and] at h3
          exact ⟨rfl, .inr ⟨rfl, _, _, rfl, rfl, h3⟩⟩
        · rename_i hno
          simp only [Word.mk.injEq] at h3
          exact absurd h3.2.symm (hno _ h3.1.symm)
        · rename_i hno _ _ _
          simp only [Word.mk.injEq] at h3
          exact absurd h3.2 (hno _ h3.1)
        · simp only [Word.mk.injEq] at h3
          exact ⟨h3.1, .inl h3.2⟩

example : SameUpToCase "g1 x2".toList "G1 X2".toList := by
  unfold SameUpToCase IsLetter
  simp only [String.toList]
  decide

/-! ## C07: comparison of words -/

theorem strLt_irrefl (a : List Char) : strLt a a = false := by
  induction a with
  | nil => rfl
  | cons x a ih => simp [strLt, ih]

theorem strLt_trans {a b c : List Char} (h1 : strLt a b = true) (h2 : strLt b c = true) :
    strLt a c = true := by
  induction a generalizing b c with
  | nil =>
    cases b with
    | nil => simp [strLt] at h1
    | cons y b => cases c with
      | nil => simp [strLt] at h2
      | cons z c => rfl
  | cons x a ih =>
    cases b with
    | nil => simp [strLt] at h1
    | cons y b =>
      cases c with
      | nil => simp [strLt] at h2
      | cons z c =>
        simp only [strLt, Bool.or_eq_true, decide_eq_true_eq, Bool.and_eq_true, beq_iff_eq] at h1 h2 ⊢
        rcases h1 with h1 | ⟨rfl, h1⟩ <;> rcases h2 with h2 | ⟨rfl, h2⟩
        · left; omega
        · left; exact h1
        · left; exact h2
        · right; exact ⟨rfl, ih h1 h2⟩

theorem strLt_total (a b : List Char) : strLt a b = true ∨ a = b ∨ strLt b a = true := by
  induction a generalizing b with
  | nil => cases b <;> simp [strLt]
  | cons x a ih =>
    cases b with
    | nil => simp [strLt]
    | cons y b =>
      simp only [strLt, Bool.or_eq_true, decide_eq_true_eq, Bool.and_eq_true, beq_iff_eq,
        List.cons.injEq]
      rcases lt_trichotomy x.toNat y.toNat with h | h | h
      · exact .inl (.inl h)
      · have hxy : x = y := by rw [← Char.ofNat_toNat x, h, Char.ofNat_toNat]
        subst hxy
        rcases ih b with h | h | h
        · exact .inl (.inr ⟨rfl, h⟩)
        · exact .inr (.inl ⟨rfl, h⟩)
        · exact .inr (.inr (.inr ⟨rfl, h⟩))
      · exact .inr (.inr (.inl h))

/-- **C07**: `<` is irreflexive. -/
theorem C07_irrefl (a : Word) : a.lt a = false := by
  unfold Word.lt Val.lt
  rw [if_pos rfl]
  cases a.val <;> simp [strLt_irrefl]

/-- **C07**: `<` is transitive. -/
theorem C07_trans (a b c : Word) (h1 : a.lt b = true) (h2 : b.lt c = true) : a.lt c = true := by
  obtain ⟨la, va⟩ := a
  obtain ⟨lb, vb⟩ := b
  obtain ⟨lc, vc⟩ := c
  unfold Word.lt at h1 h2 ⊢
  simp only at h1 h2 ⊢
  split at h1 <;> split at h2
  · next e1 e2 =>
    subst e1; subst e2
    rw [if_pos rfl]
    cases va <;> cases vb <;> cases vc <;> simp_all [Val.lt]
    · linarith
    · exact strLt_trans h1 h2
  · next e1 e2 =>
    subst e1
    rw [if_neg e2]; exact h2
  · next e1 e2 =>
    subst e2
    rw [if_neg e1]; exact h1
  · simp only [decide_eq_true_eq] at h1 h2
    have : la ≠ lc := by rintro rfl; omega
    rw [if_neg this]
    simp only [decide_eq_true_eq]; omega

/-- **C07**: any two words are comparable. -/
theorem C07_total (a b : Word) (ha : a.WF) (hb : b.WF) : a.lt b = true ∨ a = b ∨ b.lt a = true := by
  obtain ⟨la, va⟩ := a
  obtain ⟨lb, vb⟩ := b
  unfold Word.lt
  simp only
  by_cases h : la = lb
  · subst h
    simp only [if_true, Word.mk.injEq, true_and]
    unfold Word.WF at ha hb
    simp only at ha hb
    cases va <;> cases vb
    · rename_i p q
      simp only [Val.lt, decide_eq_true_eq, Val.num.injEq]
      exact lt_trichotomy p q
    · exfalso; cases hk : wordKind la with
      | none => simp [hk] at ha
      | some k => cases k <;> simp_all
    · exfalso; cases hk : wordKind la with
      | none => simp [hk] at ha
      | some k => cases k <;> simp_all
    · rename_i p q
      simp only [Val.lt, Val.str.injEq]
      exact strLt_total p q
  · have h' : ¬ lb = la := fun e => h e.symm
    simp only [h, h', if_false, decide_eq_true_eq, Word.mk.injEq, false_and, false_or]
    rcases lt_trichotomy la.toNat lb.toNat with h1 | h1 | h1
    · exact .inl h1
    · exact absurd (by rw [← Char.ofNat_toNat la, h1, Char.ofNat_toNat]) h
    · exact .inr h1

/-- **C07**: the other comparisons agree with `<` and `==`, and letters are compared first, then
values. -/
theorem C07_consistent (a b : Word) :
    (a.le b = true ↔ a.lt b = true ∨ a = b) ∧ (a.ge b = true ↔ b.lt a = true ∨ a = b) ∧
    (a.gt b = true ↔ b.lt a = true) ∧
    (a.letter.toNat < b.letter.toNat → a.lt b = true) ∧
    (∀ x y, a.letter = b.letter → a.val = .num x → b.val = .num y → (a.lt b = true ↔ x < y)) := by
  refine ⟨?_, ?_, Iff.rfl, ?_, ?_⟩
  · simp only [Word.le, Bool.or_eq_true, beq_iff_eq]; tauto
  · simp only [Word.ge, Bool.or_eq_true, beq_iff_eq]; tauto
  · intro h
    have : a.letter ≠ b.letter := by intro e; rw [e] at h; omega
    unfold Word.lt; rw [if_neg this]; simpa using h
  · intro x y h hx hy
    unfold Word.lt; rw [if_pos h, hx, hy]; simp [Val.lt]

/-- **C07**: never both `a < b` and `b < a`. -/
theorem C07_asymm (a b : Word) (h : a.lt b = true) : b.lt a = false := by
  by_contra hn
  have := C07_trans a b a h (by simpa using hn)
  rw [C07_irrefl] at this; cases this

example : Word.lt ⟨'G', .num 90⟩ ⟨'X', .num 1⟩ = true := by decide +kernel
example : Word.WF ⟨'T', .str ['1']⟩ := by simp [Word.WF, wordKind]

/-! ## C08: comparing a word with text -/

/-- **C08**: `word == text` is true exactly if the text is that one word. -/
theorem C08_eq_iff (w : Word) (t : List Char) :
    w.eqText t = .ok true ↔ text2words t = .ok [w] := by
  unfold Word.eqText str2word
  cases text2words t with
  | error e => simp
  | ok ws =>
    match ws with
    | [] => simp
    | [w'] =>
      obtain ⟨l, v⟩ := w
      obtain ⟨l', v'⟩ := w'
      simp only [Except.ok.injEq, Bool.and_eq_true, beq_iff_eq, List.cons.injEq, and_true,
        Word.mk.injEq]
      constructor <;> rintro ⟨rfl, rfl⟩ <;> exact ⟨rfl, rfl⟩
    | _ :: _ :: _ => simp

/-- **C08**: text with several words, or not a word list at all, raises `GCodeWordStrError`;
one different word compares unequal; blank text is not a word (`str2word` gives `None`, and the
comparison raises `AttributeError`). -/
theorem C08_other (w : Word) (t : List Char) :
    (∀ ws, text2words t = .ok ws → 2 ≤ ws.length →
      w.eqText t = .error .wordStr ∧ str2word t = .error .wordStr) ∧
    (∀ w', text2words t = .ok [w'] → w' ≠ w → w.eqText t = .ok false) ∧
    ((∀ ws, text2words t ≠ .ok ws) → w.eqText t = .error .wordStr) ∧
    (Blank t → str2word t = .ok none ∧ w.eqText t = .error .attribute) := by
  refine ⟨?_, ?_, ?_, ?_⟩
  · intro ws h hl
    unfold Word.eqText str2word
    rw [h]
    match ws with
    | [] => simp at hl
    | [_] => simp at hl
    | _ :: _ :: _ => simp
  · intro w' h hne
    unfold Word.eqText str2word
    rw [h]
    obtain ⟨l, v⟩ := w
    obtain ⟨l', v'⟩ := w'
    simp only [ne_eq, Word.mk.injEq, not_and] at hne
    simp only [Except.ok.injEq, Bool.and_eq_false_iff, beq_eq_false_iff_ne]
    by_cases hl : l = l'
    · right; exact fun e => hne hl.symm e.symm
    · left; exact hl
  · intro hno
    unfold Word.eqText str2word
    cases h : text2words t with
    | ok ws => exact absurd h (hno ws)
    | error e => rw [((C01_error_iff t e).1 h).1]
  · intro hb
    have : text2words t = .ok [] := (C01_ok_iff t []).2 (.nil hb)
    unfold Word.eqText str2word
    rw [this]; simp

example : Word.eqText ⟨'G', .num 90⟩ "g90.0".toList = .ok true := by decide +kernel
example : Word.eqText ⟨'G', .num 90⟩ "G90 X1".toList = .error .wordStr := by decide +kernel

/-! ## C09: `words2dict` -/

/-- **C09**: a letter is mapped to the value of the last word with that letter (and only if it is
allowed); nothing else is in the dictionary. -/
theorem C09_words2dict (ws : List Word) (limit : Option (List Char)) (l : Char) (v : Val) :
    words2dict ws limit l = some v ↔
      (∀ ls, limit = some ls → l ∈ ls) ∧
      ∃ pre post, ws = pre ++ ⟨l, v⟩ :: post ∧ ∀ w ∈ post, w.letter ≠ l := by
  have hfold : ∀ (ws : List Word) (acc : Option Val),
      ws.foldl (fun acc (w : Word) => if w.letter = l then some w.val else acc) acc = some v ↔
        (∃ pre post, ws = pre ++ ⟨l, v⟩ :: post ∧ ∀ w ∈ post, w.letter ≠ l) ∨
        (acc = some v ∧ ∀ w ∈ ws, w.letter ≠ l) := by
    intro ws
    induction ws with
    | nil => intro acc; simp
    | cons w ws ih =>
      intro acc
      rw [List.foldl_cons, ih]
      constructor
      · rintro (⟨pre, post, rfl, hp⟩ | ⟨h1, h2⟩)
        · exact .inl ⟨w :: pre, post, rfl, hp⟩
        · split at h1
          · next hl =>
            left
            refine ⟨[], ws, ?_, h2⟩
            cases w; simp_all
          · next hl =>
            right
            exact ⟨h1, by intro x hx; rcases List.mem_cons.1 hx with rfl | hx; exacts [hl, h2 x hx]⟩
      · rintro (⟨pre, post, he, hp⟩ | ⟨h1, h2⟩)
        · cases pre with
          | nil =>
            simp only [List.nil_append, List.cons.injEq] at he
            obtain ⟨rfl, rfl⟩ := he
            right; simp; exact hp
          | cons a pre =>
            simp only [List.cons_append, List.cons.injEq] at he
            obtain ⟨rfl, rfl⟩ := he
            left; exact ⟨pre, post, rfl, hp⟩
        · right
          refine ⟨?_, fun x hx => h2 x (by simp [hx])⟩
          rw [if_neg (h2 w (by simp))]; exact h1
  unfold words2dict
  rw [hfold]
  simp only [reduceCtorEq, false_and, or_false]
  cases limit with
  | none => simp
  | some ls =>
    simp only [Option.some.injEq, forall_eq']
    constructor
    · rintro ⟨pre, post, he, hp⟩
      have hmem : (⟨l, v⟩ : Word) ∈ ws.filter (fun w => ls.contains w.letter) := by rw [he]; simp
      have hl : l ∈ ls := by
        have := (List.mem_filter.1 hmem).2
        simpa using this
      refine ⟨hl, ?_⟩
      obtain ⟨a, b, rfl, ha, hb⟩ := List.filter_eq_append_iff.1 he
      obtain ⟨c, d, rfl, hc, hx, hd⟩ := List.filter_eq_cons_iff.1 hb
      refine ⟨a ++ c, d, by simp, ?_⟩
      intro w hw hwl
      have : w ∈ post := by
        rw [← hd]; exact List.mem_filter.2 ⟨hw, by simpa [hwl] using hl⟩
      exact hp w this hwl
    · rintro ⟨hl, pre, post, rfl, hp⟩
      refine ⟨pre.filter (fun w => ls.contains w.letter), post.filter (fun w => ls.contains w.letter), ?_, ?_⟩
      · rw [List.filter_append, List.filter_cons_of_pos (by simpa using hl)]
      · intro w hw; exact hp w (List.mem_filter.1 hw).1

example : words2dict [⟨'X', .num 1⟩, ⟨'Y', .num 2⟩, ⟨'X', .num 3⟩] none 'X' = some (.num 3) := by
  decide +kernel
example : words2dict [⟨'X', .num 1⟩] (some ['Y']) 'X' = none := by decide +kernel

end Pygcode.Props
