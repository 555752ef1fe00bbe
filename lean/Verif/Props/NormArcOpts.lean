import Verif.Model.NormArc

/-!
# C74: the values of `--arc_lin_method`
-/

namespace Pygcode

/-- What the help text promises for a letter: "i=inner, o=outer, m=mid". -/
inductive LetterMeans : Char → ArcMethod → Prop
  | inner : LetterMeans 'i' .inside
  | outer : LetterMeans 'o' .outside
  | mid : LetterMeans 'm' .mid

/-- What it promises for a value: "List 2 for <cw>,<ccw>", and "'i' is equivalent to 'i,i'". -/
inductive ValueMeans : List Char → ArcMethod → ArcMethod → Prop
  | one {c a} : LetterMeans c a → ValueMeans [c] a a
  | two {c d a b} : LetterMeans c a → LetterMeans d b → ValueMeans [c, ',', d] a b

theorem arcLetter_ok {c : Char} {a : ArcMethod} : arcLetter c = .ok a ↔ LetterMeans c a := by
  constructor
  · intro h
    unfold arcLetter at h
    split at h <;> first | (cases h; constructor) | cases h
  · rintro ⟨⟩ <;> rfl

theorem LetterMeans.accepted {c : Char} {a : ArcMethod} (h : LetterMeans c a) : arcLetterOK c = true := by
  cases h <;> decide

/-- A value as written: with or without a line break at the end. -/
def Ended (v value : List Char) : Prop := value = v ∨ value = v ++ ['\n']

theorem Ended.before {v value : List Char} (h : Ended v value) (hv : '\n' ∉ v) : beforeEnd value = v := by
  unfold beforeEnd
  rcases h with rfl | rfl
  · rw [if_neg (fun h => hv (List.mem_of_getLast? h))]
  · simp

theorem ended_before (value : List Char) : Ended (beforeEnd value) value := by
  unfold beforeEnd
  split_ifs with h
  · exact .inr (List.dropLast_append_getLast? _ h).symm
  · exact .inl rfl

theorem Ended.ne {v value : List Char} (h : Ended v value) (hv : v ≠ []) : value ≠ [] := by
  rcases h with rfl | rfl
  · exact hv
  · simp

theorem methods_ended {v value : List Char} (h : Ended v value) (hv : v ≠ []) (hn : '\n' ∉ v) : arcLinMethods value = arcLinLetters v := by
  unfold arcLinMethods
  rw [if_neg (h.ne hv), h.before hn]

theorem letters_meaning (v : List Char) (a b : ArcMethod) : arcLinLetters v = .ok (a, b) ↔ ValueMeans v a b := by
  constructor
  · intro h
    unfold arcLinLetters at h
    split at h
    · rename_i c
      split_ifs at h
      cases hc : arcLetter c with
      | error e => rw [hc] at h; cases h
      | ok y => rw [hc] at h; cases h; exact .one (arcLetter_ok.1 hc)
    · rename_i c d
      split_ifs at h
      cases hc : arcLetter c with
      | error e => rw [hc] at h; cases h
      | ok y =>
        rw [hc] at h
        cases hd : arcLetter d with
        | error e => rw [hd] at h; cases h
        | ok z => rw [hd] at h; cases h; exact .two (arcLetter_ok.1 hc) (arcLetter_ok.1 hd)
    · cases h
  · rintro (⟨h⟩ | ⟨h, h'⟩)
    · show (if arcLetterOK _ then (arcLetter _).map _ else _) = _
      rw [if_pos h.accepted, arcLetter_ok.2 h]
      rfl
    · unfold arcLinLetters
      simp only [h.accepted, h'.accepted, arcLetter_ok.2 h, arcLetter_ok.2 h']
      rfl

theorem ValueMeans.plain {v : List Char} {a b : ArcMethod} (h : ValueMeans v a b) : v ≠ [] ∧ '\n' ∉ v := by
  rcases h with ⟨⟨⟩⟩ | ⟨⟨⟩, ⟨⟩⟩ <;> decide

/-- **C74**: a value that is not empty is taken exactly if the help text gives it a meaning, perhaps without a line break at its end,
and it is given that meaning: the first letter is for G2 (clockwise), the second for G3 (counter-clockwise). -/
theorem C74_meaning (value : List Char) (hv : value ≠ []) (a b : ArcMethod) :
    arcLinMethods value = .ok (a, b) ↔ ∃ v, Ended v value ∧ ValueMeans v a b := by
  constructor
  · intro h
    unfold arcLinMethods at h
    rw [if_neg hv] at h
    exact ⟨_, ended_before value, (letters_meaning _ _ _).1 h⟩
  · rintro ⟨v, h, hm⟩
    rw [methods_ended h hm.plain.1 hm.plain.2]
    exact (letters_meaning _ _ _).2 hm

/-- The method an arc is given is the one for its direction. -/
theorem C74_direction (value : List Char) (a b : ArcMethod) (h : ValueMeans value a b) (on : Bool) (ε : ℝ) :
    ∃ ms, arcLinMethods value = .ok ms ∧
      (⟨on, ms, ε⟩ : ArcOpts).method ⟨'G', .num 2⟩ = .ok a ∧ (⟨on, ms, ε⟩ : ArcOpts).method ⟨'G', .num 3⟩ = .ok b := by
  refine ⟨(a, b), (C74_meaning value h.plain.1 a b).2 ⟨value, .inl rfl, h⟩, ?_, ?_⟩
  · unfold ArcOpts.method; rw [if_pos rfl]
  · unfold ArcOpts.method; rw [if_neg (by decide), if_pos rfl]

/-- **C74** (empty): with an empty value arcs in either direction are given the method `mid`. -/
theorem C74_empty (on : Bool) (ε : ℝ) : ∃ ms, arcLinMethods [] = .ok ms ∧
    (⟨on, ms, ε⟩ : ArcOpts).method ⟨'G', .num 2⟩ = .ok .mid ∧ (⟨on, ms, ε⟩ : ArcOpts).method ⟨'G', .num 3⟩ = .ok .mid := by
  refine ⟨(.mid, .mid), rfl, ?_, ?_⟩
  · unfold ArcOpts.method; rw [if_pos rfl]
  · unfold ArcOpts.method; rw [if_neg (by decide), if_pos rfl]

example : ∃ ms, arcLinMethods [] = .ok ms ∧ (⟨true, ms, 1 / 10⟩ : ArcOpts).method ⟨'G', .num 2⟩ = .ok .mid ∧
    (⟨true, ms, 1 / 10⟩ : ArcOpts).method ⟨'G', .num 3⟩ = .ok .mid := C74_empty true _

/-- The letters i, o, m when the case is ignored. -/
def anyCase : List Char := ['i', 'o', 'm', 'I', 'O', 'M', 'ı', 'İ']

/-- A value in the form of the option's regular expression, which ignores the case. -/
def Matches (value : List Char) : Prop :=
  ∃ v, Ended v value ∧ ∃ c ∈ anyCase, v = [c] ∨ ∃ d ∈ anyCase, v = [c, ',', d]

/-- Refuted: that every value the regular expression accepts is taken.  Those with a capital letter are
not, and the error is not the one with which the parser of the arguments reports a wrong value, but a
`KeyError`. -/
theorem C74_capital_refuted : ¬ ∀ value, Matches value → ∃ ms, arcLinMethods value = .ok ms := by
  intro h
  obtain ⟨ms, h⟩ := h ['I'] ⟨['I'], .inl rfl, 'I', by decide, .inl rfl⟩
  have : arcLinMethods ['I'] = .error .key := rfl
  rw [this] at h
  cases h

theorem lower_small {c : Char} {d : Char} (hd : d.toNat < 128) (h : c.toLower = d) : c.toNat < 128 := by
  unfold Char.toLower at h
  split at h
  · rename_i hc
    have := hc.2
    simp only [UInt32.le_iff_toNat_le] at this
    simp at this
    omega
  · subst h; exact hd

theorem lower_all : ∀ n < 128, ∀ d ∈ ['i', 'o', 'm'], (Char.ofNat n).toLower = d → Char.ofNat n ∈ anyCase := by decide +kernel

theorem lower_any {c d : Char} (hd : d ∈ ['i', 'o', 'm']) (h : c.toLower = d) : c ∈ anyCase := by
  have h128 : ∀ d ∈ ['i', 'o', 'm'], d.toNat < 128 := by decide
  have := lower_all c.toNat (lower_small (h128 d hd) h) d hd
  rw [Char.ofNat_toNat] at this
  exact this h

theorem letterOK_iff {c : Char} : arcLetterOK c = true ↔ c ∈ anyCase := by
  constructor
  · intro h
    unfold arcLetterOK at h
    simp only [Bool.or_eq_true, decide_eq_true_eq] at h
    rcases h with (((h | h) | h) | h) | h
    · exact lower_any (by decide) h
    · exact lower_any (by decide) h
    · exact lower_any (by decide) h
    · subst h; decide
    · subst h; decide
  · intro h
    have : ∀ c ∈ anyCase, arcLetterOK c = true := by decide
    exact this c h

theorem letters_cases {c : Char} (hc : c ∈ anyCase) :
    (arcLetter c = .error .key ∧ c ∉ ['i', 'o', 'm']) ∨ ((∃ a, arcLetter c = .ok a) ∧ c ∈ ['i', 'o', 'm']) := by
  have : c = 'i' ∨ c = 'o' ∨ c = 'm' ∨ c = 'I' ∨ c = 'O' ∨ c = 'M' ∨ c = 'ı' ∨ c = 'İ' := by simpa [anyCase] using hc
  rcases this with rfl | rfl | rfl | rfl | rfl | rfl | rfl | rfl
  all_goals first
    | exact .inr ⟨⟨_, rfl⟩, by decide⟩
    | exact .inl ⟨rfl, by decide⟩

/-- The form of the regular expression up to its `$`. -/
def Form (v : List Char) : Prop := ∃ c ∈ anyCase, v = [c] ∨ ∃ d ∈ anyCase, v = [c, ',', d]

theorem form_before (value : List Char) : Matches value ↔ Form (beforeEnd value) := by
  constructor
  · rintro ⟨v, h, hf⟩
    rw [h.before]
    · exact hf
    · have hbr : ∀ c ∈ anyCase, c ≠ '\n' := by decide
      obtain ⟨c, hc, rfl | ⟨d, hd, rfl⟩⟩ := hf
      · simpa using (hbr c hc).symm
      · simpa using ⟨(hbr c hc).symm, (hbr d hd).symm⟩
  · exact fun h => ⟨_, ended_before value, h⟩

theorem letters_bad {v : List Char} (h : ¬ Form v) : arcLinLetters v = .error .value := by
  unfold arcLinLetters
  split
  · rename_i a
    rw [if_neg]
    exact fun ha => h ⟨a, letterOK_iff.1 ha, .inl rfl⟩
  · rename_i a b
    rw [if_neg]
    intro hab
    rw [Bool.and_eq_true] at hab
    exact h ⟨a, letterOK_iff.1 hab.1, .inr ⟨b, letterOK_iff.1 hab.2, rfl⟩⟩
  · rfl

theorem letters_good {v : List Char} (h : Form v) :
    (arcLinLetters v = .error .key ∧ ∃ c ∈ v, c ∈ anyCase ∧ c ∉ ['i', 'o', 'm']) ∨
    ((∃ ms, arcLinLetters v = .ok ms) ∧ ∀ c ∈ v, c ∈ anyCase → c ∈ ['i', 'o', 'm']) := by
  have hcomma : ',' ∉ anyCase := by decide
  obtain ⟨c, hc, rfl | ⟨d, hd, rfl⟩⟩ := h
  · have e : arcLinLetters [c] = (arcLetter c).map (fun x => (x, x)) := by
      unfold arcLinLetters; simp only [letterOK_iff.2 hc, if_true]
    rw [e]
    rcases letters_cases hc with ⟨h1, h2⟩ | ⟨⟨a, h1⟩, h2⟩ <;> rw [h1]
    · exact .inl ⟨rfl, c, by simp, hc, h2⟩
    · refine .inr ⟨⟨_, rfl⟩, fun x hx _ => ?_⟩
      rw [List.mem_singleton] at hx
      rw [hx]; exact h2
  · have e : arcLinLetters [c, ',', d] = match arcLetter c with
      | .error e => .error e
      | .ok x => (arcLetter d).map (fun y => (x, y)) := by
      unfold arcLinLetters; simp only [letterOK_iff.2 hc, letterOK_iff.2 hd, Bool.and_self, if_true]; rfl
    rw [e]
    rcases letters_cases hc with ⟨h1, h2⟩ | ⟨⟨a, h1⟩, h2⟩ <;> rw [h1]
    · exact .inl ⟨rfl, c, by simp, hc, h2⟩
    · rcases letters_cases hd with ⟨k1, k2⟩ | ⟨⟨b, k1⟩, k2⟩ <;> simp only [k1]
      · exact .inl ⟨rfl, d, by simp, hd, k2⟩
      · refine .inr ⟨⟨_, rfl⟩, fun x hx hx' => ?_⟩
        have hx : x = c ∨ x = ',' ∨ x = d := by simpa using hx
        rcases hx with rfl | rfl | rfl
        exacts [h2, absurd hx' hcomma, k2]

/-- What happens to all values that are not empty: those not of that form are reported; of the others, those with a letter that is not
a small one are a `KeyError`, and the rest is taken. -/
theorem C74_capital (value : List Char) (hv : value ≠ []) :
    (arcLinMethods value = .error .value ↔ ¬ Matches value) ∧
    (arcLinMethods value = .error .key ↔ Matches value ∧ ∃ c ∈ value, c ∈ anyCase ∧ c ∉ ['i', 'o', 'm']) ∧
    ((∃ ms, arcLinMethods value = .ok ms) ↔ Matches value ∧ ∀ c ∈ value, c ∈ anyCase → c ∈ ['i', 'o', 'm']) := by
  have hE : arcLinMethods value = arcLinLetters (beforeEnd value) := by unfold arcLinMethods; rw [if_neg hv]
  have hmem : ∀ c ∈ anyCase, (c ∈ value ↔ c ∈ beforeEnd value) := by
    intro c hc
    have hbr : ∀ c ∈ anyCase, c ≠ '\n' := by decide
    have := ended_before value
    generalize beforeEnd value = v at this
    rcases this with rfl | rfl
    · exact Iff.rfl
    · simp [hbr c hc]
  rw [hE, form_before]
  by_cases hf : Form (beforeEnd value)
  · rcases letters_good hf with ⟨h1, c, h2, h3, h4⟩ | ⟨⟨ms, h1⟩, h2⟩ <;> rw [h1]
    · exact ⟨⟨fun h => (by cases h), fun h => absurd hf h⟩, ⟨fun _ => ⟨hf, c, (hmem c h3).2 h2, h3, h4⟩, fun _ => rfl⟩,
        ⟨fun ⟨_, h⟩ => (by cases h), fun h => absurd (h.2 c ((hmem c h3).2 h2) h3) h4⟩⟩
    · exact ⟨⟨fun h => (by cases h), fun h => absurd hf h⟩,
        ⟨fun h => (by cases h), fun ⟨_, c, k1, k2, k3⟩ => absurd (h2 c ((hmem c k2).1 k1) k2) k3⟩,
        ⟨fun _ => ⟨hf, fun c k1 k2 => h2 c ((hmem c k2).1 k1) k2⟩, fun _ => ⟨ms, rfl⟩⟩⟩
  · rw [letters_bad hf]
    exact ⟨⟨fun _ => hf, fun _ => rfl⟩, ⟨fun h => (by cases h), fun h => absurd h.1 hf⟩, ⟨fun ⟨_, h⟩ => (by cases h), fun h => absurd h.1 hf⟩⟩

/-- Refuted: that only values with a meaning are taken.  One line break at the end is passed over. -/
theorem C74_break_refuted : ¬ ∀ value ms, value ≠ [] → arcLinMethods value = .ok ms → ∃ a b, ValueMeans value a b := by
  intro h
  obtain ⟨a, b, h⟩ := h ['i', '\n'] (.inside, .inside) (by simp) rfl
  cases h

/-- `i,o` -/
example : ValueMeans "i,o".toList .inside .outside := .two .inner .outer
example : Matches "M,i".toList := ⟨_, .inl rfl, 'M', by decide, .inr ⟨'i', by decide, rfl⟩⟩
example : arcLinMethods "M,i".toList = .error .key := rfl
/-- A line break at the end does not matter. -/
example : arcLinMethods "m,i\n".toList = .ok (.mid, .inside) := by decide
/-- Anything else is reported as wrong. -/
example : arcLinMethods "i;o".toList = .error .value := by decide
example : arcLinMethods "i\n\n".toList = .error .value := by decide

end Pygcode
