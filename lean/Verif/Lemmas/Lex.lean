import Verif.Spec.WordGrammar

/-! Helper lemmas about the lexer: matchers compute the longest value text. -/

namespace Pygcode
open Spec

theorem takeWhile_app {α} {p : α → Bool} {a b : List α} (ha : ∀ x ∈ a, p x = true)
    (hb : ∀ x ∈ b.head?, p x = false) : (a ++ b).takeWhile p = a := by
  rw [List.takeWhile_append_of_pos ha]
  cases b with
  | nil => simp
  | cons x b => simp [hb x (by simp)]

theorem dropWhile_app {α} {p : α → Bool} {a b : List α} (ha : ∀ x ∈ a, p x = true)
    (hb : ∀ x ∈ b.head?, p x = false) : (a ++ b).dropWhile p = b := by
  rw [List.dropWhile_append_of_pos ha]
  cases b with
  | nil => simp
  | cons x b => simp [hb x (by simp)]

theorem mem_takeWhile {α} {p : α → Bool} {l : List α} {x} (h : x ∈ l.takeWhile p) : p x = true := by
  have := List.all_takeWhile (p := p) (l := l)
  rw [List.all_eq_true] at this
  exact this x h

theorem not_space_of_digit {c : Char} (h : c.isDigit = true) : isSpace c = false := by
  simp only [Char.isDigit, Bool.and_eq_true, decide_eq_true_eq, UInt32.le_iff_toNat_le] at h
  have h1 : 48 ≤ c.toNat := h.1
  have h2 : c.toNat ≤ 57 := h.2
  simp only [isSpace, Bool.or_eq_false_iff, Bool.and_eq_false_iff, decide_eq_false_iff_not,
    beq_eq_false_iff_ne]
  omega

theorem minus_not_space : isSpace '-' = false := by decide
theorem dot_not_space : isSpace '.' = false := by decide
theorem dot_not_digit : '.'.isDigit = false := by decide
theorem minus_not_digit : '-'.isDigit = false := by decide

theorem head?_digits {d r : List Char} (hd : Digits d) (hne : d ≠ []) :
    ∀ x ∈ (d ++ r).head?, x.isDigit = true := by
  cases d with
  | nil => exact absurd rfl hne
  | cons a d => intro x hx; simp at hx; subst hx; exact hd _ (by simp)

/-! ### Correct character classes -/

theorem isLetter_iff (c : Char) : isWordLetter c = true ↔ IsLetter c := by
  unfold isWordLetter IsLetter
  constructor
  · intro h
    by_contra hn
    have hu : c.toUpper = c := by
      simp only [Char.toUpper]
      rw [dif_neg]
      simp only [UInt32.le_iff_toNat_le]
      intro h'
      apply hn; right
      exact h'
    rw [hu] at h
    unfold wordKind at h
    split at h <;> first | (simp at h; done) | (exact hn (by decide))
  · intro h
    have key : ∀ n : Fin 123, ((65 ≤ n.val ∧ n.val ≤ 90) ∨ (97 ≤ n.val ∧ n.val ≤ 122)) →
        (wordKind (Char.ofNat n.val).toUpper).isSome = true := by decide +kernel
    have hlt : c.toNat < 123 := by omega
    have := key ⟨c.toNat, hlt⟩ h
    simpa [Char.ofNat_toNat] using this

theorem wordKind_eq_kindOf (c : Char) : wordKind c = kindOf c := by
  by_cases h : c.toNat < 123
  · have key : ∀ n : Fin 123, wordKind (Char.ofNat n.val) = kindOf (Char.ofNat n.val) := by
      decide +kernel
    have := key ⟨c.toNat, h⟩
    simpa [Char.ofNat_toNat] using this
  · have h1 : wordKind c = none := by
      unfold wordKind
      split <;> first | rfl | exact absurd (by decide) h
    have h2 : kindOf c = none := by
      unfold kindOf
      have hne : ∀ d : Char, d.toNat < 123 → c ≠ d := by
        rintro d hd rfl; exact h hd
      have hn : ∀ l : List Char, (∀ d ∈ l, d.toNat < 123) → c ∉ l :=
        fun l hl hc => hne c (hl c hc) rfl
      rw [if_neg (hn _ (by decide)), if_neg (hn _ (by decide)), if_neg (hne _ (by decide)),
        if_neg (hne _ (by decide)), if_neg (hn _ (by decide))]
    rw [h1, h2]

theorem digitsVal_eq (l : List Char) : digitsVal l = Nat.ofDigitChars 10 l 0 := by
  unfold digitsVal
  rw [Nat.ofDigitChars]
  rfl

/-! ### Evaluating the matchers on decomposed text -/

theorem digits_ne_space {d r : List Char} (hd : Digits d) (hne : d ≠ []) :
    ∀ x ∈ (d ++ r).head?, isSpace x = false :=
  fun x hx => not_space_of_digit (head?_digits hd hne x hx)

theorem matchInt_eval {ws d r : List Char} (hw : Blank ws) (hd : Digits d) (hne : d ≠ [])
    (hr : ∀ x ∈ r.head?, x.isDigit = false) :
    matchInt (ws ++ (d ++ r)) = some (ws ++ d, r) := by
  unfold matchInt
  simp only [takeWhile_app hw (digits_ne_space hd hne), dropWhile_app hw (digits_ne_space hd hne),
    takeWhile_app hd hr, dropWhile_app hd hr, if_neg hne]

theorem matchCode_eval_int {ws d r : List Char} (hw : Blank ws) (hd : Digits d) (hne : d ≠ [])
    (hr : ∀ x ∈ r.head?, x.isDigit = false)
    (hr2 : ∀ c r', r = '.' :: c :: r' → c.isDigit = false) :
    matchCode (ws ++ (d ++ r)) = some (ws ++ d, r) := by
  unfold matchCode
  simp only [takeWhile_app hw (digits_ne_space hd hne), dropWhile_app hw (digits_ne_space hd hne),
    takeWhile_app hd hr, dropWhile_app hd hr, if_neg hne]
  split
  · next c r' => simp [hr2 c r' rfl]
  · rfl

theorem matchCode_eval_dot {ws d r : List Char} {c : Char} (hw : Blank ws) (hd : Digits d)
    (hne : d ≠ []) (hc : c.isDigit = true) :
    matchCode (ws ++ (d ++ '.' :: c :: r)) = some (ws ++ d ++ ['.', c], r) := by
  unfold matchCode
  have hr : ∀ x ∈ ('.' :: c :: r).head?, x.isDigit = false := by simp [dot_not_digit]
  simp only [takeWhile_app hw (digits_ne_space hd hne), dropWhile_app hw (digits_ne_space hd hne),
    takeWhile_app hd hr, dropWhile_app hd hr, if_neg hne, hc, if_true]

/-- `sg` is an optional minus sign. -/
def Sign (sg : List Char) : Prop := sg = [] ∨ sg = ['-']

theorem matchMinus_eval {sg b : List Char} (hs : Sign sg) (hb : ∀ x ∈ b.head?, x ≠ '-') :
    matchMinus (sg ++ b) = (sg, b) := by
  rcases hs with rfl | rfl
  · cases b with
    | nil => rfl
    | cons x b =>
      have := hb x (by simp)
      simp only [List.nil_append]
      unfold matchMinus
      split
      · next h => simp at h; exact absurd h.1 this
      · rfl
  · rfl

theorem sign_head {sg b : List Char} (hs : Sign sg) (hb : ∀ x ∈ b.head?, isSpace x = false) :
    ∀ x ∈ (sg ++ b).head?, isSpace x = false := by
  rcases hs with rfl | rfl
  · simpa using hb
  · simp [minus_not_space]

theorem digit_ne_minus {x : Char} (h : x.isDigit = true) : x ≠ '-' := by
  rintro rfl; simp [minus_not_digit] at h

theorem matchFloat_eval_int {ws sg d r : List Char} (hw : Blank ws) (hs : Sign sg) (hd : Digits d)
    (hne : d ≠ []) (hr : ∀ x ∈ r.head?, x.isDigit = false ∧ x ≠ '.') :
    matchFloat (ws ++ (sg ++ (d ++ r))) = some (ws ++ sg ++ d, r) := by
  unfold matchFloat
  have h1 := sign_head hs (digits_ne_space (r := r) hd hne)
  have h2 : ∀ x ∈ (d ++ r).head?, x ≠ '-' := fun x hx => digit_ne_minus (head?_digits hd hne x hx)
  have h3 : ∀ x ∈ r.head?, x.isDigit = false := fun x hx => (hr x hx).1
  simp only [takeWhile_app hw h1, dropWhile_app hw h1, matchMinus_eval hs h2,
    takeWhile_app hd h3, dropWhile_app hd h3, ne_eq, hne, not_false_eq_true, if_true]
  split
  · next r' => exact absurd rfl (hr '.' (by simp)).2
  · rfl

theorem matchFloat_eval_dot {ws sg d f r : List Char} (hw : Blank ws) (hs : Sign sg)
    (hd : Digits d) (hf : Digits f) (hne : d ≠ [] ∨ f ≠ [])
    (hr : ∀ x ∈ r.head?, x.isDigit = false) :
    matchFloat (ws ++ (sg ++ (d ++ '.' :: (f ++ r)))) = some (ws ++ sg ++ d ++ '.' :: f, r) := by
  unfold matchFloat
  have h0 : ∀ x ∈ (d ++ '.' :: (f ++ r)).head?, isSpace x = false ∧ x ≠ '-' := by
    cases d with
    | nil => simp [dot_not_space]
    | cons a d =>
      intro x hx; simp at hx; subst hx
      have := hd _ (List.mem_cons_self)
      exact ⟨not_space_of_digit this, digit_ne_minus this⟩
  have h1 := sign_head hs (fun x hx => (h0 x hx).1)
  have h3 : ∀ x ∈ ('.' :: (f ++ r)).head?, x.isDigit = false := by simp [dot_not_digit]
  simp only [takeWhile_app hw h1, dropWhile_app hw h1, matchMinus_eval hs (fun x hx => (h0 x hx).2),
    takeWhile_app hd h3, dropWhile_app hd h3, takeWhile_app hf hr, dropWhile_app hf hr]
  by_cases hd0 : d = []
  · subst hd0
    have hf0 : f ≠ [] := by simpa using hne
    simp [takeWhile_app hf hr, dropWhile_app hf hr, hf0]
  · simp [hd0]

/-! ### Soundness: a match is a value text followed by the rest -/

theorem split_while (p : Char → Bool) (s : List Char) :
    s = s.takeWhile p ++ s.dropWhile p := (List.takeWhile_append_dropWhile).symm

theorem digits_takeWhile (s : List Char) : Digits (s.takeWhile Char.isDigit) :=
  fun _ h => mem_takeWhile h

theorem blank_takeWhile (s : List Char) : Blank (s.takeWhile isSpace) :=
  fun _ h => mem_takeWhile h

theorem matchInt_sound {s v r : List Char} (h : matchInt s = some (v, r)) :
    s = v ++ r ∧ ∃ ws i, v = ws ++ i ∧ Blank ws ∧ i ≠ [] ∧ Digits i := by
  unfold matchInt at h
  simp only at h
  split at h
  · cases h
  · next hne =>
    simp only [Option.some.injEq, Prod.mk.injEq] at h
    obtain ⟨rfl, rfl⟩ := h
    refine ⟨?_, _, _, rfl, blank_takeWhile _, hne, digits_takeWhile _⟩
    rw [List.append_assoc, List.takeWhile_append_dropWhile, List.takeWhile_append_dropWhile]

theorem matchCode_sound {s v r : List Char} (h : matchCode s = some (v, r)) :
    s = v ++ r ∧ ValueText .code v := by
  unfold matchCode at h
  simp only at h
  have hs := split_while isSpace s
  have hd := split_while Char.isDigit (s.dropWhile isSpace)
  split at h
  · cases h
  · next hne =>
    split at h
    · next c r' heq =>
      split at h
      · next hc =>
        simp only [Option.some.injEq, Prod.mk.injEq] at h
        obtain ⟨rfl, rfl⟩ := h
        rw [heq] at hd
        refine ⟨?_, _, _, _, rfl, blank_takeWhile _, hne, digits_takeWhile _, .inr ⟨c, rfl, hc⟩⟩
        conv_lhs => rw [hs, hd]
        simp
      · simp only [Option.some.injEq, Prod.mk.injEq] at h
        obtain ⟨rfl, rfl⟩ := h
        rw [heq] at hd
        refine ⟨?_, _, _, [], (List.append_nil _).symm, blank_takeWhile _, hne, digits_takeWhile _,
          .inl rfl⟩
        conv_lhs => rw [hs, hd]
        simp
    · simp only [Option.some.injEq, Prod.mk.injEq] at h
      obtain ⟨rfl, rfl⟩ := h
      refine ⟨?_, _, _, [], (List.append_nil _).symm, blank_takeWhile _, hne, digits_takeWhile _,
          .inl rfl⟩
      conv_lhs => rw [hs, hd]
      simp

theorem matchMinus_sound (s : List Char) : ∃ sg b, matchMinus s = (sg, b) ∧ s = sg ++ b ∧ Sign sg := by
  unfold matchMinus
  split
  · exact ⟨_, _, rfl, rfl, .inr rfl⟩
  · exact ⟨_, _, rfl, rfl, .inl rfl⟩

theorem matchFloat_sound {s v r : List Char} (h : matchFloat s = some (v, r)) :
    s = v ++ r ∧ ValueText .flt v := by
  unfold matchFloat at h
  have hs := split_while isSpace s
  obtain ⟨sg, b, hm, hsb, hsg⟩ := matchMinus_sound (s.dropWhile isSpace)
  simp only [hm] at h
  rw [hsb] at hs
  have hd := split_while Char.isDigit b
  split at h
  · next hne =>
    split at h
    · next r' heq =>
      simp only [Option.some.injEq, Prod.mk.injEq] at h
      obtain ⟨rfl, rfl⟩ := h
      rw [heq] at hd
      refine ⟨?_, s.takeWhile isSpace, sg, _, List.append_assoc _ _ _, blank_takeWhile _, hsg, .inr ⟨_, _, rfl,
        digits_takeWhile _, digits_takeWhile r', .inl hne⟩⟩
      conv_lhs => rw [hs, hd, split_while Char.isDigit r']
      simp
    · simp only [Option.some.injEq, Prod.mk.injEq] at h
      obtain ⟨rfl, rfl⟩ := h
      refine ⟨?_, _, sg, _, rfl, blank_takeWhile _, hsg, .inl ⟨hne, digits_takeWhile _⟩⟩
      conv_lhs => rw [hs, hd]
      simp
  · split at h
    · rename_i r' _
      split at h
      · cases h
      · next hf =>
        simp only [Option.some.injEq, Prod.mk.injEq] at h
        obtain ⟨rfl, rfl⟩ := h
        refine ⟨?_, _, sg, _, rfl, blank_takeWhile _, hsg, .inr ⟨[], _, rfl,
          by simp [Digits], digits_takeWhile r', .inr hf⟩⟩
        conv_lhs => rw [hs, split_while Char.isDigit r']
        simp
    · cases h

theorem matchName_sound {s v r : List Char} (h : matchName s = some (v, r)) :
    s = v ++ r ∧ ValueText .name v ∧ (r = [] ∨ r = ['\n']) := by
  unfold matchName at h
  simp only at h
  split at h
  · cases h
  · next hne =>
    split at h
    · next hr =>
      simp only [Option.some.injEq, Prod.mk.injEq] at h
      obtain ⟨rfl, rfl⟩ := h
      refine ⟨split_while _ s, ⟨hne, fun c hc => ?_⟩, hr⟩
      have := mem_takeWhile hc
      simpa using this
    · cases h

/-! ### Completeness: any value text at the start is matched, and not exceeded -/

theorem digits_append {a b : List Char} (ha : Digits a) (hb : Digits b) : Digits (a ++ b) := by
  intro c hc; rcases List.mem_append.1 hc with h | h
  · exact ha c h
  · exact hb c h

theorem head_dropWhile {p : Char → Bool} {s : List Char} :
    ∀ x ∈ (s.dropWhile p).head?, p x = false := by
  intro x hx
  have := List.head?_dropWhile_not p s
  revert this
  simp only [Option.mem_def] at hx
  rw [hx]; simp

theorem matchInt_complete {v' r' : List Char}
    (h : ∃ ws i, v' = ws ++ i ∧ Blank ws ∧ i ≠ [] ∧ Digits i) :
    ∃ v r, matchInt (v' ++ r') = some (v, r) ∧ v'.length ≤ v.length := by
  obtain ⟨ws, i, rfl, hw, hne, hi⟩ := h
  have hd := split_while Char.isDigit r'
  have := matchInt_eval (ws := ws) (d := i ++ r'.takeWhile Char.isDigit)
    (r := r'.dropWhile Char.isDigit) hw (digits_append hi (digits_takeWhile _)) (by simp [hne])
    head_dropWhile
  refine ⟨_, _, Eq.trans ?_ this, ?_⟩
  · congr 1; conv_lhs => rw [hd]
    simp
  · simp

theorem matchCode_complete {v' r' : List Char} (h : ValueText .code v') :
    ∃ v r, matchCode (v' ++ r') = some (v, r) ∧ v'.length ≤ v.length := by
  obtain ⟨ws, i, f, rfl, hw, hne, hi, hf⟩ := h
  rcases hf with rfl | ⟨c, rfl, hc⟩
  · have hd := split_while Char.isDigit r'
    have hne' : i ++ r'.takeWhile Char.isDigit ≠ [] := by simp [hne]
    by_cases hx : ∃ c r2, r'.dropWhile Char.isDigit = '.' :: c :: r2 ∧ c.isDigit = true
    · obtain ⟨c, r2, heq, hc⟩ := hx
      have := matchCode_eval_dot (r := r2) hw (digits_append hi (digits_takeWhile r')) hne' hc
      refine ⟨_, _, Eq.trans ?_ this, ?_⟩
      · congr 1; conv_lhs => rw [hd, heq]
        simp
      · simp
    · have := matchCode_eval_int hw (digits_append hi (digits_takeWhile r')) hne'
        (r := r'.dropWhile Char.isDigit) head_dropWhile (by
          intro c r2 heq
          by_contra hc
          exact hx ⟨c, r2, heq, by simpa using hc⟩)
      refine ⟨_, _, Eq.trans ?_ this, ?_⟩
      · congr 1; conv_lhs => rw [hd]
        simp
      · simp
  · refine ⟨_, _, Eq.trans ?_ (matchCode_eval_dot (r := r') hw hi hne hc), ?_⟩
    · simp
    · simp

theorem matchFloat_complete {v' r' : List Char} (h : ValueText .flt v') :
    ∃ v r, matchFloat (v' ++ r') = some (v, r) ∧ v'.length ≤ v.length := by
  obtain ⟨ws, sg, b, rfl, hw, hs, hb⟩ := h
  have hd := split_while Char.isDigit r'
  rcases hb with ⟨hne, hb⟩ | ⟨i, f, rfl, hi, hf, hne⟩
  · have hne' : b ++ r'.takeWhile Char.isDigit ≠ [] := by simp [hne]
    by_cases hx : ∃ r2, r'.dropWhile Char.isDigit = '.' :: r2
    · obtain ⟨r2, heq⟩ := hx
      have hd2 := split_while Char.isDigit r2
      have := matchFloat_eval_dot hw hs (digits_append hb (digits_takeWhile r'))
        (digits_takeWhile r2) (.inl hne') (r := r2.dropWhile Char.isDigit) head_dropWhile
      refine ⟨_, _, Eq.trans ?_ this, ?_⟩
      · congr 1; conv_lhs => rw [hd, heq, hd2]
        simp
      · simp
    · have := matchFloat_eval_int hw hs (digits_append hb (digits_takeWhile r')) hne'
        (r := r'.dropWhile Char.isDigit) (by
          intro x hx'
          refine ⟨head_dropWhile x hx', ?_⟩
          rintro rfl
          apply hx
          cases hdw : r'.dropWhile Char.isDigit with
          | nil => rw [hdw] at hx'; simp at hx'
          | cons a l => rw [hdw] at hx'; simp at hx'; subst hx'; exact ⟨l, rfl⟩)
      refine ⟨_, _, Eq.trans ?_ this, ?_⟩
      · congr 1; conv_lhs => rw [hd]
        simp
      · simp
  · have := matchFloat_eval_dot hw hs hi (digits_append hf (digits_takeWhile r'))
      (by rcases hne with h | h
          · exact .inl h
          · right; simp [h]) (r := r'.dropWhile Char.isDigit) head_dropWhile
    refine ⟨_, _, Eq.trans ?_ this, ?_⟩
    · congr 1; conv_lhs => rw [hd]
      simp
    · simp

theorem matchValue_sound {k : VKind} {s v r : List Char} (h : matchValue k s = some (v, r)) :
    s = v ++ r ∧ ValueText k v := by
  cases k with
  | flt => exact matchFloat_sound h
  | code => exact matchCode_sound h
  | posint => exact matchInt_sound h
  | tool => exact matchInt_sound h
  | name => exact ⟨(matchName_sound h).1, (matchName_sound h).2.1⟩

theorem matchValue_complete {k : VKind} (hk : k ≠ .name) {v' r' : List Char}
    (h : ValueText k v') : ∃ v r, matchValue k (v' ++ r') = some (v, r) ∧ v'.length ≤ v.length := by
  cases k with
  | flt => exact matchFloat_complete h
  | code => exact matchCode_complete h
  | posint => exact matchInt_complete h
  | tool => exact matchInt_complete h
  | name => exact absurd rfl hk

theorem matchName_eval {v r : List Char} (hv : v ≠ []) (hn : ∀ c ∈ v, c ≠ '\n')
    (hr : r = [] ∨ r = ['\n']) : matchName (v ++ r) = some (v, r) := by
  have h1 : ∀ x ∈ v, (x != '\n') = true := by simpa using hn
  have h2 : ∀ x ∈ r.head?, (x != '\n') = false := by
    rcases hr with rfl | rfl <;> simp
  unfold matchName
  simp only [takeWhile_app h1 h2, dropWhile_app h1 h2, hv, if_false, hr, if_true]

theorem matchValue_iff {k : VKind} {s v r : List Char} :
    matchValue k s = some (v, r) ↔ LongestValue k s v r := by
  constructor
  · intro h
    obtain ⟨hs, hv⟩ := matchValue_sound h
    refine ⟨hs, hv, ?_, ?_⟩
    · intro v' r' hs' hv'
      by_cases hk : k = .name
      · subst hk
        obtain ⟨-, ⟨hne, -⟩, hr⟩ := matchName_sound h
        rcases hr with rfl | rfl
        · have := congrArg List.length (hs.symm.trans hs'); simp at this; omega
        · have h2 := hs.symm.trans hs'
          have hlen := congrArg List.length h2
          simp at hlen
          by_contra hlt
          have : r' = [] := by
            apply List.eq_nil_of_length_eq_zero; omega
          subst this
          simp at h2
          exact hv'.2 '\n' (by rw [← h2]; simp) rfl
      · obtain ⟨v2, r2, h2, hle⟩ := matchValue_complete hk (r' := r') hv'
        rw [← hs', h] at h2
        simp at h2
        rw [h2.1]; exact hle
    · rintro rfl
      exact (matchName_sound h).2.2
  · rintro ⟨hs, hv, hmax, hname⟩
    by_cases hk : k = .name
    · subst hk
      rw [hs]
      exact matchName_eval hv.1 hv.2 (hname rfl)
    · obtain ⟨v2, r2, h2, hle⟩ := matchValue_complete hk (r' := r) hv
      rw [← hs] at h2
      obtain ⟨hs2, hv2⟩ := matchValue_sound h2
      have hle2 := hmax _ _ hs2 hv2
      have heq : v2 ++ r2 = v ++ r := hs2.symm.trans hs
      obtain ⟨rfl, rfl⟩ := List.append_inj heq (by omega)
      exact h2

/-! ### Denotation of numbers -/

theorem ofDigit_append (i f : List Char) :
    (Nat.ofDigitChars 10 (i ++ f) 0 : ℚ) / 10 ^ f.length =
      digitsVal i + (digitsVal f : ℚ) / 10 ^ f.length := by
  rw [digitsVal_eq, digitsVal_eq, Nat.ofDigitChars_append, Nat.ofDigitChars_eq_ofDigitChars_zero]
  push_cast
  field_simp

theorem numText_unsigned_eval {i f : List Char} {dot : Bool} (hi : Digits i) (hf : Digits f)
    (hdot : dot = false → f = []) :
    numText.unsigned (i ++ (if dot then '.' :: f else [])) =
      digitsVal i + (digitsVal f : ℚ) / 10 ^ f.length := by
  unfold numText.unsigned
  cases dot with
  | false =>
    have := hdot rfl
    subst this
    have h0 : ∀ x ∈ ([] : List Char).head?, x.isDigit = false := by simp
    simp only [Bool.false_eq_true, if_false, takeWhile_app hi h0, dropWhile_app hi h0]
    simp [digitsVal_eq]
  | true =>
    have h0 : ∀ x ∈ ('.' :: f).head?, x.isDigit = false := by simp [dot_not_digit]
    have hf' : f.takeWhile Char.isDigit = f := by
      have := takeWhile_app (b := []) hf (by simp)
      simpa using this
    simp only [if_true, takeWhile_app hi h0, dropWhile_app hi h0, hf']
    exact ofDigit_append i f

theorem numText_eval {ws i f : List Char} {neg dot : Bool} (hw : Blank ws) (hi : Digits i)
    (hf : Digits f) (hdot : dot = false → f = []) :
    numText (ws ++ (if neg then ['-'] else []) ++ i ++ (if dot then '.' :: f else [])) =
      (if neg then -1 else 1) * (digitsVal i + (digitsVal f : ℚ) / 10 ^ f.length) := by
  have hun := numText_unsigned_eval hi hf hdot
  have hhead : ∀ x ∈ (i ++ (if dot then '.' :: f else [])).head?, isSpace x = false ∧ x ≠ '-' := by
    cases i with
    | nil => cases dot <;> simp [dot_not_space]
    | cons a i =>
      intro x hx; simp at hx; subst hx
      have := hi _ (List.mem_cons_self)
      exact ⟨not_space_of_digit this, digit_ne_minus this⟩
  have hsg : Sign (if neg then ['-'] else []) := by cases neg <;> simp [Sign]
  have h1 := sign_head hsg (fun x hx => (hhead x hx).1)
  unfold numText
  rw [List.append_assoc, List.append_assoc]
  simp only [dropWhile_app hw h1]
  cases neg with
  | true =>
    simp only [if_true, List.cons_append, List.nil_append, hun]
    ring
  | false =>
    simp only [Bool.false_eq_true, if_false, List.nil_append]
    split
    · next r heq =>
      exact absurd rfl (hhead '-' (by rw [heq]; simp)).2
    · rw [hun]; ring

theorem denotesNum_iff {v : List Char} {q : ℚ} (h : ∃ ws i f, Blank ws ∧ Digits i ∧ Digits f ∧
    ∃ neg dot : Bool, (dot = false → f = []) ∧
      v = ws ++ (if neg then ['-'] else []) ++ i ++ (if dot then '.' :: f else [])) :
    DenotesNum v q ↔ q = numText v := by
  constructor
  · rintro ⟨ws, i, f, hw, hi, hf, neg, dot, hdot, rfl, rfl⟩
    exact (numText_eval hw hi hf hdot).symm
  · rintro rfl
    obtain ⟨ws, i, f, hw, hi, hf, neg, dot, hdot, rfl⟩ := h
    exact ⟨ws, i, f, hw, hi, hf, neg, dot, hdot, rfl, numText_eval hw hi hf hdot⟩

theorem numShape_of_valueText {k : VKind} (hk : k = .flt ∨ k = .code ∨ k = .posint) {v : List Char}
    (h : ValueText k v) : ∃ ws i f, Blank ws ∧ Digits i ∧ Digits f ∧
    ∃ neg dot : Bool, (dot = false → f = []) ∧
      v = ws ++ (if neg then ['-'] else []) ++ i ++ (if dot then '.' :: f else []) := by
  have hnil : Digits [] := by simp [Digits]
  rcases hk with rfl | rfl | rfl
  · obtain ⟨ws, sg, b, rfl, hw, hs, hb⟩ := h
    have hneg : ∃ neg : Bool, sg = if neg then ['-'] else [] := by
      rcases hs with rfl | rfl
      · exact ⟨false, rfl⟩
      · exact ⟨true, rfl⟩
    obtain ⟨neg, rfl⟩ := hneg
    rcases hb with ⟨hne, hb⟩ | ⟨i, f, rfl, hi, hf, hne⟩
    · exact ⟨ws, b, [], hw, hb, hnil, neg, false, fun _ => rfl, by simp⟩
    · exact ⟨ws, i, f, hw, hi, hf, neg, true, by simp, by simp⟩
  · obtain ⟨ws, i, f, rfl, hw, hne, hi, hf⟩ := h
    rcases hf with rfl | ⟨c, rfl, hc⟩
    · exact ⟨ws, i, [], hw, hi, hnil, false, false, fun _ => rfl, by simp⟩
    · exact ⟨ws, i, [c], hw, hi, by simpa [Digits] using hc, false, true, by simp, by simp⟩
  · obtain ⟨ws, i, rfl, hw, hne, hi⟩ := h
    exact ⟨ws, i, [], hw, hi, hnil, false, false, fun _ => rfl, by simp⟩

theorem denotesVal_iff {k : VKind} {v : List Char} {x : Val} (h : ValueText k v) :
    DenotesVal k v x ↔ x = mkVal k v := by
  cases k with
  | tool => rfl
  | name => rfl
  | flt =>
    have := fun q => denotesNum_iff (q := q) (numShape_of_valueText (.inl rfl) h)
    simp [DenotesVal, mkVal, this]
  | code =>
    have := fun q => denotesNum_iff (q := q) (numShape_of_valueText (.inr (.inl rfl)) h)
    simp [DenotesVal, mkVal, this]
  | posint =>
    have := fun q => denotesNum_iff (q := q) (numShape_of_valueText (.inr (.inr rfl)) h)
    simp [DenotesVal, mkVal, this]

/-! ### The loop -/

theorem nextLetter_eval {junk s : List Char} {c : Char}
    (hj : ∀ j ∈ junk, ¬ IsLetter j ∧ j ≠ '\n') (hc : IsLetter c) :
    nextLetter (junk ++ c :: s) = some (c.toUpper, s) := by
  induction junk with
  | nil => simp [nextLetter, (isLetter_iff c).2 hc]
  | cons j junk ih =>
    have hj1 := hj j (by simp)
    have : isWordLetter j = false := by
      rw [← Bool.not_eq_true, isLetter_iff]; exact hj1.1
    simp only [List.cons_append, nextLetter, this, Bool.false_eq_true, if_false, hj1.2]
    exact ih (fun x hx => hj x (by simp [hx]))

theorem nextLetter_sound {t s : List Char} {l : Char} (h : nextLetter t = some (l, s)) :
    ∃ junk c, t = junk ++ c :: s ∧ l = c.toUpper ∧ IsLetter c ∧
      ∀ j ∈ junk, ¬ IsLetter j ∧ j ≠ '\n' := by
  induction t with
  | nil => simp [nextLetter] at h
  | cons a t ih =>
    unfold nextLetter at h
    split at h
    · next ha =>
      simp at h
      exact ⟨[], a, by simp [h.2], h.1.symm, (isLetter_iff a).1 ha, by simp⟩
    · next ha =>
      split at h
      · cases h
      · next hn =>
        obtain ⟨junk, c, rfl, hl, hc, hj⟩ := ih h
        refine ⟨a :: junk, c, by simp, hl, hc, ?_⟩
        intro j hjm
        rcases List.mem_cons.1 hjm with rfl | hm
        · exact ⟨fun h' => ha ((isLetter_iff _).2 h'), hn⟩
        · exact hj j hm

theorem not_letter_of_space {c : Char} (h : isSpace c = true) : ¬ IsLetter c := by
  unfold IsLetter
  unfold isSpace at h
  simp only [Bool.or_eq_true, Bool.and_eq_true, decide_eq_true_eq, beq_iff_eq] at h
  omega

theorem nextLetter_blank {t : List Char} (h : Blank t) : nextLetter t = none := by
  induction t with
  | nil => rfl
  | cons a t ih =>
    have : isWordLetter a = false := by
      rw [← Bool.not_eq_true, isLetter_iff]; exact not_letter_of_space (h a (by simp))
    unfold nextLetter
    simp only [this, Bool.false_eq_true, if_false]
    split
    · rfl
    · exact ih (fun x hx => h x (by simp [hx]))

theorem kind_some_of_letter {c : Char} (h : IsLetter c) : ∃ k, wordKind c.toUpper = some k := by
  have := (isLetter_iff c).2 h
  unfold isWordLetter at this
  exact Option.isSome_iff_exists.1 this

theorem valueText_ne_nil {k : VKind} {v : List Char} (h : ValueText k v) : v ≠ [] := by
  cases k with
  | flt =>
    obtain ⟨ws, sg, b, rfl, hw, hs, hb⟩ := h
    rcases hb with ⟨hne, hb⟩ | ⟨i, f, rfl, hi, hf, hne⟩ <;> simp_all
  | code => obtain ⟨ws, i, f, rfl, hw, hne, hi, hf⟩ := h; simp [hne]
  | posint => obtain ⟨ws, i, rfl, hw, hne, hi⟩ := h; simp [hne]
  | tool => obtain ⟨ws, i, rfl, hw, hne, hi⟩ := h; simp [hne]
  | name => exact h.1

/-- One round of the loop on decomposed text. -/
theorem lexAux_step {n : ℕ} {junk s v rest : List Char} {c : Char} {k : VKind}
    (hj : ∀ j ∈ junk, ¬ IsLetter j ∧ j ≠ '\n') (hc : IsLetter c) (hk : wordKind c.toUpper = some k)
    (hm : matchValue k s = some (v, rest)) :
    lexAux (n + 1) (junk ++ c :: s) =
      match lexAux n rest with
      | .error e => .error e
      | .ok ws => .ok (⟨c.toUpper, mkVal k v⟩ :: ws) := by
  rw [lexAux, nextLetter_eval hj hc]
  simp only [hk, hm]
  rfl

/-- Result of the lexer, and that the fuel suffices and only `wordStr` errors occur. -/
theorem lexAux_spec (n : ℕ) (t : List Char) (hn : t.length < n) :
    (∀ ws, lexAux n t = .ok ws → Lexes t ws) ∧
    (∀ ws, Lexes t ws → lexAux n t = .ok ws) ∧
    (∀ e, lexAux n t = .error e → e = .wordStr) := by
  induction n generalizing t with
  | zero => omega
  | succ n ih =>
    cases hnl : nextLetter t with
    | none =>
      have hnoc : ∀ ws, Lexes t ws → ws = [] ∧ Blank t := by
        intro ws h
        cases h with
        | nil hb => exact ⟨rfl, hb⟩
        | cons hj hc hk hl hd hr => rw [nextLetter_eval hj hc] at hnl; cases hnl
      have hval : lexAux (n + 1) t = if t.all isSpace then .ok [] else .error .wordStr := by
        rw [lexAux, hnl]
      by_cases hb : t.all isSpace = true
      · rw [hval, if_pos hb]
        refine ⟨?_, ?_, ?_⟩
        · intro ws h
          cases h
          exact .nil (by simpa [Blank, List.all_eq_true] using hb)
        · intro ws h; rw [(hnoc ws h).1]
        · intro e h; cases h
      · rw [hval, if_neg hb]
        refine ⟨?_, ?_, ?_⟩
        · intro ws h; cases h
        · intro ws h
          exact absurd (List.all_eq_true.2 (hnoc ws h).2) hb
        · intro e h; cases h; rfl
    | some p =>
      obtain ⟨l, s⟩ := p
      obtain ⟨junk, c, rfl, rfl, hc, hj⟩ := nextLetter_sound hnl
      obtain ⟨k, hk⟩ := kind_some_of_letter hc
      have hkk : kindOf c.toUpper = some k := by rw [← wordKind_eq_kindOf]; exact hk
      -- every derivation decomposes the same way
      have hinv : ∀ ws, Lexes (junk ++ c :: s) ws → ∃ v rest x ws', ws = ⟨c.toUpper, x⟩ :: ws' ∧
          LongestValue k s v rest ∧ DenotesVal k v x ∧ Lexes rest ws' := by
        intro ws h
        generalize ht : junk ++ c :: s = t at h
        cases h with
        | nil hb =>
          exfalso
          have := nextLetter_blank hb
          rw [← ht, nextLetter_eval hj hc] at this
          cases this
        | cons hj' hc' hk' hl' hd' hr' =>
          rename_i junk' c' s' v' rest' k' x' ws'
          have h1 := nextLetter_eval (s := s) hj hc
          rw [ht, nextLetter_eval hj' hc'] at h1
          simp only [Option.some.injEq, Prod.mk.injEq] at h1
          obtain ⟨hcc, rfl⟩ := h1
          rw [hcc] at hk' ⊢
          rw [hkk] at hk'
          cases hk'
          exact ⟨_, _, _, _, rfl, hl', hd', hr'⟩
      cases hm : matchValue k s with
      | none =>
        have hval : lexAux (n + 1) (junk ++ c :: s) = .error .wordStr := by
          rw [lexAux, hnl]; simp only [hk, hm]
        rw [hval]
        refine ⟨?_, ?_, ?_⟩
        · intro ws h; cases h
        · intro ws h
          obtain ⟨v, rest, x, ws', -, hl, -, -⟩ := hinv ws h
          rw [matchValue_iff.2 hl] at hm; cases hm
        · intro e h; cases h; rfl
      | some p =>
        obtain ⟨v, rest⟩ := p
        have hl := matchValue_iff.1 hm
        have hlen : rest.length < n := by
          have := hl.1
          have h2 := congrArg List.length this
          simp at h2 hn
          omega
        obtain ⟨ih1, ih2, ih3⟩ := ih rest hlen
        rw [lexAux_step hj hc hk hm]
        refine ⟨?_, ?_, ?_⟩
        · intro ws h
          cases hr : lexAux n rest with
          | error e => rw [hr] at h; cases h
          | ok ws' =>
            rw [hr] at h
            cases h
            exact .cons hj hc hkk hl ((denotesVal_iff hl.2.1).2 rfl) (ih1 ws' hr)
        · intro ws h
          obtain ⟨v', rest', x, ws', rfl, hl', hd', hr'⟩ := hinv ws h
          have := matchValue_iff.2 hl'
          rw [hm] at this
          simp only [Option.some.injEq, Prod.mk.injEq] at this
          obtain ⟨rfl, rfl⟩ := this
          rw [ih2 ws' hr', (denotesVal_iff hl.2.1).1 hd']
        · intro e h
          cases hr : lexAux n rest with
          | error e' => rw [hr] at h; cases h; exact ih3 _ hr
          | ok ws' => rw [hr] at h; cases h

end Pygcode
