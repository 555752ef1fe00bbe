import Verif.Props.Texts
import Verif.Props.Failures

/-!
# Layout does not matter (C86)

A line is read as its words, whatever the case of the letters, the blanks between words and between a letter
and its number, and the comments.
-/

namespace Pygcode
open Props Machine Spec

/-- A letter (upper case) with the text of its number. -/
abbrev Piece := Char × List Char

/-- `t` is `ps` written down: the letters in either case, blanks before a letter, between a letter (other
than T) and its number, and at the end. -/
inductive LaidOut : List Piece → List Char → Prop
  | nil {b} : Blank b → LaidOut [] b
  | cons {ps t a b n} {c l : Char} : Sep a → IsLetter c → c.toUpper = l → Blank b → (l = 'T' → b = []) →
      n ≠ [] → (∀ x ∈ n, isSpace x = false ∧ ¬ IsLetter x) → LaidOut ps t →
      LaidOut ((l, n) :: ps) (a ++ c :: (b ++ (n ++ t)))

/-- Blanks up to a letter or the end. -/
def Boundary (t : List Char) : Prop := ∃ b s, t = b ++ s ∧ Blank b ∧ ∀ x ∈ s.head?, IsLetter x

theorem LaidOut.boundary {ps : List Piece} {t : List Char} (h : LaidOut ps t) : Boundary t := by
  cases h with
  | nil hb => exact ⟨t, [], by simp, hb, by simp⟩
  | @cons ps t a b n c l ha hc hu hb hT hn hnn ht => exact ⟨a, _, rfl, ha.1, by simpa using hc⟩

theorem letter_no_number {c : Char} (h : IsLetter c) : c.isDigit = false ∧ c ≠ '.' ∧ c ≠ '-' := by
  unfold IsLetter at h
  refine ⟨?_, ?_, ?_⟩
  · rw [← Bool.not_eq_true]
    intro hd
    unfold Char.isDigit at hd
    simp only [Bool.and_eq_true, decide_eq_true_eq, ge_iff_le] at hd
    have h1 : c.toNat ≤ 57 := hd.2
    omega
  · rintro rfl; revert h; decide
  · rintro rfl; revert h; decide

theorem Boundary.noExtend {t : List Char} (h : Boundary t) : NoExtend t := by
  obtain ⟨b, s, rfl, hb, hs⟩ := h
  cases b with
  | nil =>
    intro x hx
    obtain ⟨h1, h2, -⟩ := letter_no_number (hs x (by simpa using hx))
    exact ⟨h1, h2⟩
  | cons c b =>
    intro x hx
    simp only [List.cons_append, List.head?_cons, Option.mem_def, Option.some.injEq] at hx
    subst hx
    have hc := hb c (by simp)
    refine ⟨?_, ?_⟩
    · by_contra hn
      rw [not_space_of_digit (by simpa using hn)] at hc; simp at hc
    · rintro rfl; simp [dot_not_space] at hc

theorem takeWhile_stop {p : Char → Bool} (n : List Char) {t : List Char} (h : ∀ x ∈ t.head?, p x = false) :
    (n ++ t).takeWhile p = n.takeWhile p ∧ (n ++ t).dropWhile p = n.dropWhile p ++ t := by
  induction n with
  | nil =>
    cases t with
    | nil => exact ⟨rfl, rfl⟩
    | cons c t =>
      have hc := h c (by simp)
      simp [hc]
  | cons c n ih =>
    by_cases hc : p c = true
    · simp [hc, ih.1, ih.2]
    · simp [hc]

/-- The value text found does not depend on the blanks before it or on what follows. -/
theorem matchValue_layout (k : VKind) (hk : k ≠ .name) {b n t : List Char} (hb : Blank b) (hn : n ≠ [])
    (hnn : ∀ x ∈ n, isSpace x = false) (ht : NoExtend t) :
    matchValue k (b ++ (n ++ t)) = (matchValue k n).map (fun r => (b ++ r.1, r.2 ++ t)) := by
  obtain ⟨c, n', rfl⟩ := List.exists_cons_of_ne_nil hn
  have hc := hnn c (by simp)
  have h1 : (b ++ (c :: n' ++ t)).takeWhile isSpace = b ∧ (b ++ (c :: n' ++ t)).dropWhile isSpace = c :: n' ++ t := by
    have := takeWhile_stop (p := isSpace) b (t := c :: n' ++ t) (by simpa using hc)
    rw [this.1, this.2]
    refine ⟨List.takeWhile_eq_self_iff.2 (fun x hx => by simpa using hb x hx), ?_⟩
    rw [List.dropWhile_eq_nil_iff.2 (fun x hx => by simpa using hb x hx), List.nil_append]
  have h2 : (c :: n').takeWhile isSpace = [] ∧ (c :: n').dropWhile isSpace = c :: n' := by simp [hc]
  have hd : ∀ n : List Char, (n ++ t).takeWhile Char.isDigit = n.takeWhile Char.isDigit ∧
      (n ++ t).dropWhile Char.isDigit = n.dropWhile Char.isDigit ++ t :=
    fun n => takeWhile_stop n (fun x hx => (ht x hx).1)
  have hint : matchInt (b ++ (c :: n' ++ t)) = (matchInt (c :: n')).map (fun r => (b ++ r.1, r.2 ++ t)) := by
    unfold matchInt
    rw [h1.1, h1.2, h2.1, h2.2]
    simp only
    rw [(hd _).1, (hd _).2]
    split_ifs <;> simp
  cases k with
  | name => exact absurd rfl hk
  | posint => exact hint
  | tool => exact hint
  | code =>
    show matchCode _ = (matchCode _).map _
    unfold matchCode
    rw [h1.1, h1.2, h2.1, h2.2]
    simp only
    rw [(hd _).1, (hd _).2]
    by_cases he : (c :: n').takeWhile Char.isDigit = []
    · rw [if_pos he, if_pos he]; rfl
    rw [if_neg he, if_neg he]
    generalize (c :: n').dropWhile Char.isDigit = r
    rcases r with _ | ⟨x, _ | ⟨y, r⟩⟩
    · rw [List.nil_append]
      rcases t with _ | ⟨x, _ | ⟨y, r⟩⟩
      · simp
      · simp
      · have := (ht x (by simp)).2
        split
        · rename_i heq
          cases heq
          exact absurd rfl this
        · simp
    · by_cases hx : x = '.'
      · subst hx
        rcases t with _ | ⟨y, t⟩
        · simp
        · have := (ht y (by simp)).1
          simp [this]
      · rcases t with _ | ⟨y, t⟩
        · simp
        · simp only [List.cons_append, List.nil_append]
          split
          · rename_i heq
            cases heq
            exact absurd rfl hx
          · simp
    · by_cases hx : x = '.'
      · subst hx
        simp only [List.cons_append]
        split_ifs <;> simp
      · simp only [List.cons_append]
        split
        · rename_i heq
          cases heq
          exact absurd rfl hx
        · split
          · rename_i heq
            cases heq
            exact absurd rfl hx
          · simp
  | flt =>
    show matchFloat _ = (matchFloat _).map _
    unfold matchFloat
    rw [h1.1, h1.2, h2.1, h2.2]
    have hmin : matchMinus (c :: n' ++ t) = ((matchMinus (c :: n')).1, (matchMinus (c :: n')).2 ++ t) := by
      by_cases hm : c = '-'
      · subst hm; rfl
      · unfold matchMinus
        split
        · rename_i heq; cases heq; exact absurd rfl hm
        · split
          · rename_i heq; cases heq; exact absurd rfl hm
          · rfl
    rw [hmin]
    generalize matchMinus (c :: n') = q
    obtain ⟨sg, n⟩ := q
    simp only
    rw [(hd _).1, (hd _).2]
    by_cases he : n.takeWhile Char.isDigit = []
    · rw [if_neg (not_not.2 he), if_neg (not_not.2 he)]
      rcases n with _ | ⟨x, r⟩
      · rw [List.nil_append]
        rcases t with _ | ⟨x, t⟩
        · rfl
        · have := (ht x (by simp)).2
          split
          · rename_i heq; cases heq; exact absurd rfl this
          · rfl
      · by_cases hx : x = '.'
        · subst hx
          simp only [List.cons_append]
          rw [(hd _).1, (hd _).2]
          split_ifs <;> simp
        · simp only [List.cons_append]
          split
          · rename_i heq; cases heq; exact absurd rfl hx
          · split
            · rename_i heq; cases heq; exact absurd rfl hx
            · rfl
    · rw [if_pos he, if_pos he]
      generalize n.dropWhile Char.isDigit = r
      rcases r with _ | ⟨x, r⟩
      · rw [List.nil_append]
        rcases t with _ | ⟨x, t⟩
        · simp
        · have := (ht x (by simp)).2
          split
          · rename_i heq; cases heq; exact absurd rfl this
          · simp
      · by_cases hx : x = '.'
        · subst hx
          simp only [List.cons_append]
          rw [(hd _).1, (hd _).2]
          simp
        · simp only [List.cons_append]
          split
          · rename_i heq; cases heq; exact absurd rfl hx
          · split
            · rename_i heq; cases heq; exact absurd rfl hx
            · simp

theorem mkVal_layout {k : VKind} (hk : k ≠ .name) {n v r b : List Char} (hm : matchValue k n = some (v, r)) (hb : Blank b)
    (hT : k = .tool → b = []) : mkVal k (b ++ v) = mkVal k v := by
  by_cases ht : k = .tool
  · rw [hT ht, List.nil_append]
  have hv := (matchValue_iff.1 hm).2.1
  have hv' : ValueText k (b ++ v) := by
    have hbl : ∀ {ws : List Char}, Blank ws → Blank (b ++ ws) := fun h x hx =>
      (List.mem_append.1 hx).elim (hb x) (h x)
    cases k with
    | name => exact absurd rfl hk
    | tool => exact absurd rfl ht
    | flt =>
      obtain ⟨ws, sg, d, rfl, h1, h2, h3⟩ := hv
      exact ⟨b ++ ws, sg, d, by simp, hbl h1, h2, h3⟩
    | code =>
      obtain ⟨ws, i, f, rfl, h1, h2⟩ := hv
      exact ⟨b ++ ws, i, f, by simp, hbl h1, h2⟩
    | posint =>
      obtain ⟨ws, i, rfl, h1, h2⟩ := hv
      exact ⟨b ++ ws, i, by simp, hbl h1, h2⟩
  refine ((denotesVal_iff hv').1 ?_).symm
  have hd := (denotesVal_iff hv).2 (rfl : mkVal k v = mkVal k v)
  have key : (∃ q, mkVal k v = .num q ∧ DenotesNum v q) → ∃ q, mkVal k v = .num q ∧ DenotesNum (b ++ v) q := by
    rintro ⟨q, h1, ws, i, f, h2, h3, h4, neg, dot, h5, h6, h7⟩
    exact ⟨q, h1, b ++ ws, i, f, fun x hx => (List.mem_append.1 hx).elim (hb x) (h2 x), h3, h4, neg, dot, h5,
      by rw [h6]; simp, h7⟩
  cases k with
  | name => exact absurd rfl hk
  | tool => exact absurd rfl ht
  | flt => exact key hd
  | code => exact key hd
  | posint => exact key hd

/-- The words of a layout; `r` is what is left of the number before. -/
def pieceWords (r : List Char) : List Piece → Except Err (List Word)
  | [] => if r = [] then .ok [] else .error .wordStr
  | (l, n) :: ps =>
    match wordKind l with
    | none => .error .key
    | some k =>
      match matchValue k n with
      | none => .error .wordStr
      | some (v, r') =>
        match pieceWords r' ps with
        | .error e => .error e
        | .ok ws => .ok (⟨l, mkVal k v⟩ :: ws)

theorem kind_table {l : Char} {k : VKind} (h : wordKind l = some k) : (k = .name → l = 'O') ∧ (k = .tool → l = 'T') := by
  rw [wordKind_eq_kindOf] at h
  unfold kindOf at h
  constructor
  · rintro rfl
    split_ifs at h with h1 h2 h3 <;> first | exact h3 | simp at h
  · rintro rfl
    split_ifs at h with h1 h2 h3 h4 <;> first | exact h4 | simp at h

theorem lex_layout {ps : List Piece} {t : List Char} (h : LaidOut ps t) : (∀ p ∈ ps, p.1 ≠ 'O') →
    ∀ (r : List Char), (∀ x ∈ r, isSpace x = false ∧ ¬ IsLetter x) →
    ∀ m, (r ++ t).length < m → lexAux m (r ++ t) = pieceWords r ps := by
  induction h with
  | @nil b hb =>
    intro _ r hr m hm
    obtain ⟨m, rfl⟩ : ∃ m', m = m' + 1 := ⟨m - 1, by omega⟩
    have hnl : nextLetter (r ++ b) = none := by
      by_contra hne
      obtain ⟨⟨l, s⟩, hs⟩ := Option.ne_none_iff_exists'.1 hne
      obtain ⟨junk, c, he, -, hc, -⟩ := nextLetter_sound hs
      have : c ∈ r ++ b := by rw [he]; simp
      rcases List.mem_append.1 this with h | h
      · exact (hr c h).2 hc
      · exact not_letter_of_space (hb c h) hc
    rw [lexAux, hnl]
    unfold pieceWords
    simp only
    have hbb : b.all isSpace = true := List.all_eq_true.2 hb
    rw [List.all_append, hbb, Bool.and_true]
    cases r with
    | nil => rfl
    | cons c r =>
      have := (hr c (by simp)).1
      simp [this]
  | @cons ps t a b n c l ha hc hu hb hT hn hnn ht ih =>
    intro hO r hr m hm
    obtain ⟨m, rfl⟩ : ∃ m', m = m' + 1 := ⟨m - 1, by omega⟩
    have hnl : nextLetter (r ++ (a ++ c :: (b ++ (n ++ t)))) = some (l, b ++ (n ++ t)) := by
      rw [← List.append_assoc, nextLetter_eval _ hc, hu]
      intro j hj
      rcases List.mem_append.1 hj with h | h
      · refine ⟨(hr j h).2, ?_⟩
        rintro rfl
        have := (hr _ h).1
        revert this; decide
      · exact ⟨not_letter_of_space (ha.1 j h), ha.2 j h⟩
    rw [lexAux, hnl, pieceWords]
    simp only
    cases hk : wordKind l with
    | none => rfl
    | some k =>
      have hkn : k ≠ .name := fun h => hO (l, n) (by simp) ((kind_table hk).1 h)
      simp only
      rw [matchValue_layout k hkn hb hn (fun x hx => (hnn x hx).1) ht.boundary.noExtend]
      cases hm' : matchValue k n with
      | none => rfl
      | some q =>
        obtain ⟨v, r'⟩ := q
        have hvr := (matchValue_iff.1 hm').1
        simp only [Option.map_some]
        rw [ih (fun p hp => hO p (by simp [hp])) r' (fun x hx => hnn x (by rw [hvr]; simp [hx])) m ?_,
          mkVal_layout hkn hm' hb (fun h => hT ((kind_table hk).2 h))]
        · cases pieceWords r' ps <;> rfl
        · simp only [List.length_append, List.length_cons, hvr] at hm ⊢
          omega

/-- **C86** (words): two ways of writing the same letters and numbers give the same words, or fail alike. -/
theorem C86_words {ps : List Piece} {t t' : List Char} (h : LaidOut ps t) (h' : LaidOut ps t')
    (hO : ∀ p ∈ ps, p.1 ≠ 'O') : text2words t = text2words t' := by
  have h1 := lex_layout h hO [] (by simp) (t.length + 1) (by simp)
  have h2 := lex_layout h' hO [] (by simp) (t'.length + 1) (by simp)
  rw [List.nil_append] at h1 h2
  unfold text2words
  rw [h1, h2]

theorem LaidOut.trim {ps : List Piece} {t : List Char} (h : LaidOut ps t) :
    ∃ m b, t = m ++ b ∧ Blank b ∧ (∀ c ∈ m.getLast?, isSpace c = false) ∧ LaidOut ps m := by
  induction h with
  | @nil b hb => exact ⟨[], b, rfl, hb, by simp, .nil blank_nil⟩
  | @cons ps t a b n c l ha hc hu hb hT hn hnn ht ih =>
    obtain ⟨m, b', rfl, hb', hl, hm⟩ := ih
    refine ⟨a ++ c :: (b ++ (n ++ m)), b', by simp, hb', ?_, .cons ha hc hu hb hT hn hnn hm⟩
    intro x hx
    have : (n ++ m).getLast? = some x := by
      rw [← hx, show a ++ c :: (b ++ (n ++ m)) = (a ++ c :: b) ++ (n ++ m) from by simp]
      exact (List.getLast?_append_of_ne_nil _ (by simp [hn])).symm
    cases m with
    | nil =>
      rw [List.append_nil] at this
      exact (hnn x (List.mem_of_getLast? this)).1
    | cons y m =>
      rw [List.getLast?_append_of_ne_nil _ (by simp)] at this
      exact hl x this

theorem LaidOut.front {ps : List Piece} {t : List Char} (h : LaidOut ps t) :
    ∃ a m, t = a ++ m ∧ Blank a ∧ (∀ c ∈ m.head?, isSpace c = false) ∧ LaidOut ps m := by
  cases h with
  | nil hb => exact ⟨t, [], by simp, hb, by simp, .nil blank_nil⟩
  | @cons ps t a b n c l ha hc hu hb hT hn hnn ht =>
    refine ⟨a, _, rfl, ha.1, ?_, .cons (a := []) sep_nil hc hu hb hT hn hnn ht⟩
    intro x hx
    simp only [List.head?_cons, Option.mem_def, Option.some.injEq] at hx
    subst hx
    rw [← Bool.not_eq_true]
    exact fun hs => not_letter_of_space hs hc

theorem LaidOut.collapse {ps : List Piece} {t : List Char} (h : LaidOut ps t) : LaidOut ps (collapse t) := by
  have hsp : Blank [' '] := by unfold Blank; decide
  have blanks : ∀ (b r : List Char), Blank b → (∀ c ∈ r.head?, isSpace c = false) →
      ∃ b', Blank b' ∧ '\n' ∉ b' ∧ (b = [] → b' = []) ∧ Pygcode.collapse (b ++ r) = b' ++ Pygcode.collapse r := by
    intro b r hb hr
    by_cases hne : b = []
    · exact ⟨[], blank_nil, by simp, fun _ => rfl, by rw [hne]; rfl⟩
    · exact ⟨[' '], hsp, by decide, fun h => absurd h hne, by rw [collapse_blanks hb hne hr]; rfl⟩
  induction h with
  | @nil b hb =>
    obtain ⟨b', h1, -, -, h2⟩ := blanks b [] hb (by simp)
    rw [List.append_nil] at h2
    rw [h2]
    exact .nil (by simpa [Pygcode.collapse] using h1)
  | @cons ps t a b n c l ha hc hu hb hT hn hnn ht ih =>
    have hcs : isSpace c = false := by
      rw [← Bool.not_eq_true]
      exact fun hs => not_letter_of_space hs hc
    obtain ⟨a', h1, h1', -, h2⟩ := blanks a (c :: (b ++ (n ++ t))) ha.1 (by simpa using hcs)
    obtain ⟨b', h3, -, h3', h4⟩ := blanks b (n ++ t) hb (by
      obtain ⟨x, n', rfl⟩ := List.exists_cons_of_ne_nil hn
      simpa using (hnn x (by simp)).1)
    have h5 : Pygcode.collapse (c :: (b ++ (n ++ t))) = c :: Pygcode.collapse (b ++ (n ++ t)) := by
      exact collapse_app (a := [c]) (by simpa using hcs) _
    rw [h2, h5, h4, collapse_app (fun x hx => (hnn x hx).1)]
    exact .cons ⟨h1, fun x hx he => h1' (he ▸ hx)⟩ hc hu h3 (fun h => h3' (hT h)) hn hnn ih

theorem LaidOut.clean {ps : List Piece} {t : List Char} (h : LaidOut ps t) : LaidOut ps (cleanText t) := by
  unfold cleanText
  obtain ⟨a, m, rfl, ha, hm, h1⟩ := h.front
  obtain ⟨m', b, rfl, hb, hl, h2⟩ := h1.trim
  have : strip (a ++ (m' ++ b)) = m' := by
    cases m' with
    | nil =>
      have := strip_eval (s := []) blank_nil (fun x hx => (List.mem_append.1 hx).elim (ha x) (hb x) : Blank (a ++ b)) (by simp) (by simp)
      simpa using this
    | cons c m' =>
      rw [← List.append_assoc]
      exact strip_eval ha hb (by simpa using hm) hl
  rw [this]
  exact h2.collapse

/-- **C86** (lines): two lines whose block texts write the same letters and numbers do the same on every
machine, or fail alike, whatever their comments and macros. -/
theorem C86_lines {ps : List Piece} {t t' bs bs' : List Char} {c c' : Option Comment} {mac mac' : Option (List Char)}
    (ht : Line.parts t = .ok (bs, c, mac)) (ht' : Line.parts t' = .ok (bs', c', mac'))
    (h : LaidOut ps bs) (h' : LaidOut ps bs') (hO : ∀ p ∈ ps, p.1 ≠ 'O') (m : Machine) :
    m.processStr t = m.processStr t' := by
  have hb : Block.ofText bs = Block.ofText bs' := by
    unfold Block.ofText
    rw [C86_words h.clean h'.clean hO]
  unfold processStr Line.ofText
  rw [ht, ht']
  simp only
  rw [hb]
  cases Block.ofText bs' <;> rfl

/-! ## Comments -/

theorem LaidOut.pad {ps : List Piece} {t y : List Char} (h : LaidOut ps t) (hy : Blank y) : LaidOut ps (t ++ y) := by
  induction h with
  | @nil b hb => exact .nil (fun x hx => (List.mem_append.1 hx).elim (hb x) (hy x))
  | @cons ps t a b n c l ha hc hu hb hT hn hnn ht ih =>
    have := LaidOut.cons ha hc hu hb hT hn hnn ih
    simpa using this

theorem LaidOut.unpad {ps : List Piece} {x w : List Char} (h : LaidOut ps (x ++ w)) (hw : Blank w) : LaidOut ps x := by
  obtain ⟨m, b, he, hb, hl, hm⟩ := h.trim
  rcases List.append_eq_append_iff.1 he with ⟨y, rfl, rfl⟩ | ⟨y, rfl, rfl⟩
  · rcases nil_or_snoc y with rfl | ⟨y, z, rfl⟩
    · simpa using hm
    · have h1 := hl z (by rw [← List.append_assoc, List.getLast?_concat]; rfl)
      have h2 := hw z (by simp)
      rw [h1] at h2
      cases h2
  · exact hm.pad (fun z hz => hb z (by simp [hz]))

/-- `t` is the text `s` with comments: one behind a semicolon, or any number in brackets. -/
inductive WithComments (s : List Char) : List Char → Prop
  | semicolon {c} : ';' ∉ s → '%' ∉ s ++ c → '\n' ∉ s ++ c → WithComments s (s ++ ';' :: c)
  | brackets {t cs} : ';' ∉ t → '%' ∉ t → '\n' ∉ t → Bracketed t s cs → WithComments s t

theorem scan_pad {w : List Char} (hw : Blank w) (t : List Char) : ∀ st,
    bracketScan st (t ++ w) = ((bracketScan st t).1 ++ w, (bracketScan st t).2) := by
  have ho : ∀ c ∈ w, c ≠ '(' ∧ c ≠ ')' := fun c hc => by
    have := hw c hc
    constructor <;> (rintro rfl; revert this; decide)
  have base : ∀ w : List Char, (∀ c ∈ w, c ≠ '(' ∧ c ≠ ')') →
      bracketScan none w = (w, []) ∧ ∀ acc, bracketScan (some acc) w = ('(' :: acc.reverse ++ w, []) := by
    intro w
    induction w with
    | nil => intro _; simp [bracketScan]
    | cons c w ih =>
      intro h
      obtain ⟨h1, h2⟩ := h c (by simp)
      obtain ⟨i1, i2⟩ := ih (fun x hx => h x (by simp [hx]))
      refine ⟨by simp [bracketScan, h1, i1], fun acc => ?_⟩
      simp [bracketScan, h2, i2]
  induction t with
  | nil =>
    rintro (_ | acc)
    · rw [List.nil_append, (base w ho).1]; rfl
    · rw [List.nil_append, (base w ho).2]; rfl
  | cons c t ih =>
    rintro (_ | acc)
    · rw [List.cons_append, bracketScan, bracketScan]
      split_ifs
      · exact ih _
      · rw [ih]; rfl
    · rw [List.cons_append, bracketScan, bracketScan]
      split_ifs
      · rw [ih]
      · exact ih _

theorem WithComments.parts {s t : List Char} (h : WithComments s t) : ∃ bs c, Line.parts t = .ok (bs, c, none) ∧
    ∀ ps, LaidOut ps s → LaidOut ps bs := by
  have hsplit : ∀ t : List Char, '%' ∉ t → '\n' ∉ t → ∃ b w, lineSplit t = some (b, none) ∧ t = b ++ w ∧ Blank w := by
    intro t hp hn
    obtain ⟨b, m, h1, -, h2, h3⟩ := C12_split t hn
    cases m with
    | some x =>
      obtain ⟨hx, he⟩ := h2 x rfl
      exact absurd (by rw [he]; exact List.mem_append_right _ (List.mem_of_mem_head? hx)) hp
    | none =>
      obtain ⟨w, hw, hb, -⟩ := h3 rfl
      exact ⟨b, w, h1, hw, hb⟩
  cases h with
  | @semicolon c h1 h2 h3 =>
    obtain ⟨b, w, hl, he, hw⟩ := hsplit (s ++ ';' :: c) (by simpa using h2) (by simpa using h3)
    obtain ⟨c', rfl, hc'⟩ : ∃ c', b = s ++ ';' :: c' ∧ ∀ x ∈ c', x ∈ c := by
      rcases List.append_eq_append_iff.1 he with ⟨y, hy, hyc⟩ | ⟨y, rfl, hyc⟩
      · cases y with
        | nil =>
          rw [List.nil_append] at hyc
          exact absurd (hw ';' (by rw [← hyc]; simp)) (by decide)
        | cons z y =>
          rw [List.cons_append] at hyc
          cases hyc
          exact ⟨y, hy, fun x hx => by simp [hx]⟩
      · cases y with
        | nil =>
          rw [List.nil_append] at hyc
          exact absurd (hw ';' (by rw [hyc]; simp)) (by decide)
        | cons z y =>
          exact absurd (hw ';' (by rw [hyc]; simp)) (by decide)
    obtain ⟨blk, x, hs, ⟨w', hw', hb', -⟩, -⟩ := C10_semicolon s c' h1 (by
      intro hn
      apply h3
      rcases List.mem_append.1 hn with h | h
      · exact List.mem_append_left _ h
      · exact List.mem_append_right _ (hc' _ h))
    refine ⟨blk, some (.semicolon x), ?_, fun ps h => (hw' ▸ h).unpad hb'⟩
    unfold Line.parts
    rw [hl]
    simp only
    rw [hs]
  | @brackets _ cs h1 h2 h3 hb =>
    obtain ⟨b, w, hl, rfl, hw⟩ := hsplit t h2 h3
    have hscan := bracketed_scan hb
    rw [scan_pad hw] at hscan
    obtain ⟨blk, cs', hb', -⟩ := C11_total b
    have hs := C11_brackets b blk cs' (fun h => h1 (by simp [h])) (fun h => h3 (by simp [h])) hb'
    rw [bracketed_scan hb'] at hscan
    cases hscan
    refine ⟨blk, if cs' = [] then none else some (Comment.brackets (joinWith ". ".toList cs')), ?_, fun ps h => h.unpad hw⟩
    unfold Line.parts
    rw [hl]
    simp only
    rw [hs]

/-- **C86**: two texts that write the same letters and numbers, in any case, with any blanks around letters
and any comments, do the same on every machine. -/
theorem C86_texts_partial {ps : List Piece} {s s' t t' : List Char} (ht : WithComments s t) (ht' : WithComments s' t')
    (h : LaidOut ps s) (h' : LaidOut ps s') (hO : ∀ p ∈ ps, p.1 ≠ 'O') (m : Machine) :
    m.processStr t = m.processStr t' := by
  obtain ⟨bs, c, h1, h2⟩ := ht.parts
  obtain ⟨bs', c', h1', h2'⟩ := ht'.parts
  exact C86_lines h1 h1' (h2 ps h) (h2' ps h') hO m

/-- **C86 is violated** for blanks inside a number: they end it, and further digits are skipped. -/
theorem C86_refuted : ¬ ∀ (t t' : List Char) (m : Machine), t.filter (fun c => !isSpace c) = t'.filter (fun c => !isSpace c) →
    (m.processStr t).2 = none → (m.processStr t').2 = none →
    (m.processStr t).1.absPos.val .X = (m.processStr t').1.absPos.val .X := by
  intro h
  have := h "G1 X1 2 Y3".toList "G1 X12 Y3".toList newNull (by decide) (by decide +kernel) (by decide +kernel)
  exact absurd this (by decide +kernel)

/-- Nor may a blank stand between T and its number. -/
theorem C86_tool_refuted : ∃ w w' : Word, text2words "T1".toList = .ok [w] ∧ text2words "T 1".toList = .ok [w'] ∧ w ≠ w' :=
  ⟨⟨'T', .str "1".toList⟩, ⟨'T', .str " 1".toList⟩, by decide +kernel, by decide +kernel, by decide +kernel⟩

/-! ## Cases -/

def instPieces : List Piece := [('G', "1".toList), ('X', "-2.5".toList), ('T', "7".toList)]

theorem inst_tight : LaidOut instPieces "G1X-2.5T7".toList :=
  .cons (a := []) (b := []) (c := 'G') (n := "1".toList) sep_nil (by unfold IsLetter; decide) (by decide) blank_nil (by simp) (by decide)
    (by unfold IsLetter; decide)
    (.cons (a := []) (b := []) (c := 'X') (n := "-2.5".toList) sep_nil (by unfold IsLetter; decide) (by decide) blank_nil (by simp)
      (by decide) (by unfold IsLetter; decide)
      (.cons (a := []) (b := []) (c := 'T') (n := "7".toList) (t := []) sep_nil (by unfold IsLetter; decide) (by decide) blank_nil
        (by simp) (by decide) (by unfold IsLetter; decide) (.nil blank_nil)))

theorem inst_wide : LaidOut instPieces " g 1\t x  -2.5 t7 ".toList :=
  .cons (a := [' ']) (b := [' ']) (c := 'g') (n := "1".toList) ⟨by unfold Blank; decide, by decide⟩ (by unfold IsLetter; decide)
    (by decide) (by unfold Blank; decide) (by simp) (by decide) (by unfold IsLetter; decide)
    (.cons (a := "\t ".toList) (b := "  ".toList) (c := 'x') (n := "-2.5".toList) ⟨by unfold Blank; decide, by decide⟩
      (by unfold IsLetter; decide) (by decide) (by unfold Blank; decide) (by simp)
      (by decide) (by unfold IsLetter; decide)
      (.cons (a := [' ']) (b := []) (c := 't') (n := "7".toList) (t := [' ']) ⟨by unfold Blank; decide, by decide⟩
        (by unfold IsLetter; decide) (by decide) blank_nil
        (by simp) (by decide) (by unfold IsLetter; decide) (.nil (by unfold Blank; decide))))

example (m : Machine) : m.processStr "G1(left)X-2.5T7".toList = m.processStr " g 1\t x  -2.5 t7 ;G90".toList :=
  C86_texts_partial
    (.brackets (by decide) (by decide) (by decide)
      (.span (a := "G1".toList) (c := "left".toList) (rest := "X-2.5T7".toList) (blk := "X-2.5T7".toList) (by decide) (by decide)
        (.plain (fun a b h => by
          have : '(' ∈ "X-2.5T7".toList := by rw [h]; simp
          exact absurd this (by decide)))))
    (.semicolon (c := "G90".toList) (by decide) (by decide) (by decide)) inst_tight inst_wide (by decide) m

example : text2words "G1X-2.5T7".toList = text2words " g 1\t x  -2.5 t7 ".toList := C86_words inst_tight inst_wide (by decide)

example (m : Machine) : m.processStr "G1X-2.5T7".toList = m.processStr " g 1\t x  -2.5 t7 %m".toList :=
  C86_lines (bs := "G1X-2.5T7".toList) (c := none) (mac := none) (bs' := " g 1\t x  -2.5 t7 ".toList) (c' := none)
    (mac' := some "%m".toList) (by decide +kernel) (by decide +kernel) inst_tight inst_wide (by decide) m

end Pygcode
