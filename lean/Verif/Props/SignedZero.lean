import Verif.Props.Float
import Verif.Props.LinePrint
import Verif.Props.Omit

/-!
# Programs printed from binary floating point (C95)

The model prints a line from the exact values of its words.  Python prints it from doubles: a value may be
off by the rounding of reading and of arithmetic, and a zero may have a sign.  Such a text is read as the
model's is.
-/

namespace Pygcode
open Props Machine Spec

/-- `Outputs w t`: Python may print the word `w` as `t`.  The value of a float word is held as a double that is
less than 0.0005 off (the double nearest to what was read, or the result of some arithmetic); the number of a
G or M word is the double read from a text that writes it; the others are integers and strings. -/
inductive Outputs (w : Word) : List Char → Prop
  | float {q : ℚ} (x : F64) : kindOf w.letter = some .flt → w.val = .num q → 0 ≤ x.mag → |x.val - q| < 1 / 2000 →
      Outputs w (w.letter :: x.cleanFloat)
  | code {q : ℚ} (s : List Char) : kindOf w.letter = some .code → w.val = .num q → DenotesNum s q →
      (s.dropWhile isSpace).head? ≠ some '-' → Outputs w (w.letter :: (F64.read s).cleanCode)
  | other : kindOf w.letter ≠ some .flt → kindOf w.letter ≠ some .code → Outputs w w.str

/-- The text of a line: what is printed of its words, then the comment, then the macro (line.py:51-57,
block.py:120-123). -/
def lineOf (texts : List (List Char)) (c : Option Comment) (m : Option (List Char)) : List Char :=
  joinWith [' '] ((if texts = [] then [] else [joinWith [' '] texts]) ++ (c.map Comment.str).toList ++ m.toList)

/-- **C95** (words): what Python prints for a printable word is what the exact value prints, except that a zero
may print as `-0`. -/
theorem C95_word (w : Word) (hp : Printable w) (t : List Char) (h : Outputs w t) :
    t = w.str ∨ (kindOf w.letter = some .flt ∧ w.val = .num 0 ∧ t = w.letter :: "-0".toList) := by
  cases h with
  | @float q x hk hv hx hd =>
    obtain ⟨l, v⟩ := w
    simp only at hk hv ⊢
    subst hv
    simp only [Printable, hk] at hp
    obtain ⟨n, d, hd3, hn, rfl⟩ := hp
    rcases C71_absorbed x hx n d hd3 hn hd with h | ⟨rfl, h⟩
    · left
      rw [h]
      unfold Word.str Word.valueStr
      simp only [wordKind_eq_kindOf, hk]
    · right
      exact ⟨hk, by simp, by rw [h]⟩
  | @code q s hk hv hs hm =>
    obtain ⟨l, v⟩ := w
    simp only at hk hv ⊢
    subst hv
    simp only [Printable, hk] at hp
    obtain ⟨n, d, hd1, hn, rfl⟩ := hp
    left
    rw [C71_codes s n d hd1 hn hm hs]
    unfold Word.str Word.valueStr
    simp only [wordKind_eq_kindOf, hk]
  | other _ _ => exact .inl rfl

/-- **C95** (reading): the double read from any text that writes the value of a float word prints in this way. -/
theorem C95_read (w : Word) (hp : Printable w) (q : ℚ) (s : List Char) (hk : kindOf w.letter = some .flt)
    (hv : w.val = .num q) (hs : DenotesNum s q) : Outputs w (w.letter :: (F64.read s).cleanFloat) := by
  obtain ⟨l, v⟩ := w
  simp only at hk hv ⊢
  subst hv
  simp only [Printable, hk] at hp
  obtain ⟨n, d, hd, hn, rfl⟩ := hp
  refine .float _ hk rfl (nearest_nonneg (abs_nonneg _)) ?_
  refine lt_of_le_of_lt (read_err (by omega) (denotes_numText hs)) ?_
  have hp : (1 : ℚ) ≤ 10 ^ d := one_le_pow₀ (by norm_num)
  have hnq : |(n : ℚ)| < 10 ^ 6 := by exact_mod_cast hn
  rw [abs_div, abs_of_pos (show (0 : ℚ) < 10 ^ d by positivity)]
  have : |(n : ℚ)| / 10 ^ d ≤ |(n : ℚ)| := div_le_self (abs_nonneg _) hp
  rw [div_lt_iff₀ (by norm_num)]
  norm_num at hnq ⊢
  linarith

/-! ### The characters of such texts -/

theorem outputs_chars {w : Word} (hp : PlainWord w) {t : List Char} (h : Outputs w t) :
    t ≠ [] ∧ ∀ c ∈ t, IsLetter c ∨ c.isDigit = true ∨ c = '-' ∨ c = '.' := by
  rcases C95_word w hp.1 t h with rfl | ⟨-, -, rfl⟩
  · exact ⟨by simp [Word.str], plain_str_chars hp⟩
  · refine ⟨by simp, ?_⟩
    intro c hc
    rcases List.mem_cons.1 hc with rfl | hc
    · exact .inl (printable_isLetter hp.1)
    · have : c = '-' ∨ c = '0' := by simpa using hc
      rcases this with rfl | rfl
      · exact .inr (.inr (.inl rfl))
      · exact .inr (.inl (by decide))

theorem outputs_solid {ws : List Word} {ts : List (List Char)} (h : List.Forall₂ Outputs ws ts)
    (hp : ∀ w ∈ ws, PlainWord w) :
    ∀ s ∈ ts, s ≠ [] ∧ ∀ c ∈ s, IsLetter c ∨ c.isDigit = true ∨ c = '-' ∨ c = '.' := by
  induction h with
  | nil => simp
  | @cons w t ws ts h1 h2 ih =>
    intro s hs
    rcases List.mem_cons.1 hs with rfl | hs
    · exact outputs_chars (hp w (by simp)) h1
    · exact ih (fun w hw => hp w (by simp [hw])) s hs

theorem outputs_noBlank {ws : List Word} {ts : List (List Char)} (h : List.Forall₂ Outputs ws ts)
    (hp : ∀ w ∈ ws, PlainWord w) : ∀ s ∈ ts, s ≠ [] ∧ ∀ c ∈ s, isSpace c = false := by
  intro s hs
  obtain ⟨h1, h2⟩ := outputs_solid h hp s hs
  refine ⟨h1, fun c hc => ?_⟩
  rcases h2 c hc with h | h | rfl | rfl
  · exact letter_not_space h
  · exact not_space_of_digit h
  · decide
  · decide

theorem outputs_noSpecial {ws : List Word} {ts : List (List Char)} (h : List.Forall₂ Outputs ws ts)
    (hp : ∀ w ∈ ws, PlainWord w) : NoSpecial (joinWith [' '] ts) := by
  have key : ∀ z, ¬ IsLetter z → z.isDigit = false → z ≠ '-' → z ≠ '.' → z ≠ ' ' → z ∉ joinWith [' '] ts := by
    intro z h1 h2 h3 h4 h5 hm
    rcases Props.mem_joinWith hm with hz | ⟨s, hs, hz⟩
    · exact h5 (by simpa using hz)
    · rcases (outputs_solid h hp s hs).2 z hz with h' | h' | h' | h'
      · exact h1 h'
      · rw [h2] at h'; cases h'
      · exact h3 h'
      · exact h4 h'
  refine ⟨?_, ?_, ?_, ?_⟩ <;> apply key <;> first | decide | (unfold IsLetter; decide)

/-! ### Reading -/

theorem noExtend_join {ws : List Word} {ts : List (List Char)} (h : List.Forall₂ Outputs ws ts)
    (sep : List Char) (hsep : sep = [] ∧ ts = [] ∨ sep = [' ']) : NoExtend (sep ++ joinWith [' '] ts) := by
  rcases hsep with ⟨rfl, rfl⟩ | rfl
  · exact noExtend_nil
  · intro x hx
    simp only [List.cons_append, List.head?_cons, Option.mem_def, Option.some.injEq] at hx
    subst hx
    decide

theorem outputs_lexes {ws : List Word} {ts : List (List Char)} (h : List.Forall₂ Outputs ws ts)
    (hp : ∀ w ∈ ws, PlainWord w) : ∀ (sep : List Char), Spec.Sep sep → Lexes (sep ++ joinWith [' '] ts) ws := by
  induction h with
  | nil =>
    intro sep hs
    exact .nil (by simpa [joinWith] using hs.1)
  | @cons w t ws ts h1 h2 ih =>
    intro sep hs
    have hw := hp w (by simp)
    obtain ⟨hl, hu⟩ := printable_letter hw.1
    obtain ⟨sep', hs', hc', he⟩ : ∃ sep', Spec.Sep sep' ∧ (sep' = [] ∧ ts = [] ∨ sep' = [' ']) ∧
        joinWith [' '] (t :: ts) = t ++ (sep' ++ joinWith [' '] ts) := by
      cases ts with
      | nil => exact ⟨[], sep_nil, .inl ⟨rfl, rfl⟩, by simp [joinWith]⟩
      | cons t' ts => exact ⟨[' '], ⟨blank_space, by decide⟩, .inr rfl, by simp [joinWith]⟩
    have hrest := ih (fun w' hw' => hp w' (by simp [hw'])) sep' hs'
    have hne := noExtend_join h2 sep' hc'
    rw [he]
    rcases C95_word w hw.1 t h1 with rfl | ⟨hk, hv, rfl⟩
    · obtain ⟨k, hk, hm, hv⟩ := printable_match hw.1 hne (fun h => absurd h hw.2.1)
      have hlong := matchValue_iff.1 hm
      have hcons := Lexes.cons (sep_junk hs) hl
        (by rw [hu, ← wordKind_eq_kindOf]; exact hk) hlong ((denotesVal_iff hlong.2.1).2 rfl) hrest
      rw [hu, hv] at hcons
      simpa [Word.str, List.append_assoc] using hcons
    · have hm : matchValue .flt ("-0".toList ++ (sep' ++ joinWith [' '] ts)) =
          some ("-0".toList, sep' ++ joinWith [' '] ts) := by
        have := matchFloat_numStr (neg := true) (i := ['0']) (f := []) (by simp)
          (by intro c hc; simp at hc; subst hc; decide) (by intro c hc; cases hc) hne
        simpa [matchValue] using this
      have hlong := matchValue_iff.1 hm
      have hcons := Lexes.cons (sep_junk hs) hl (by rw [hu]; exact hk) hlong
        ((denotesVal_iff hlong.2.1).2 rfl) hrest
      have h0 : mkVal .flt "-0".toList = w.val := by rw [hv]; decide +kernel
      rw [hu, h0] at hcons
      simpa [List.append_assoc] using hcons

/-- **C95** (words of a line): what Python prints for plain words, with blanks between, is read as these words. -/
theorem C95_words (ws : List Word) (hp : ∀ w ∈ ws, PlainWord w) (ts : List (List Char))
    (h : List.Forall₂ Outputs ws ts) : text2words (joinWith [' '] ts) = .ok ws :=
  (C01_ok_iff _ _).2 (outputs_lexes h hp [] sep_nil)

theorem outputs_clean {ws : List Word} {ts : List (List Char)} (h : List.Forall₂ Outputs ws ts)
    (hp : ∀ w ∈ ws, PlainWord w) {a b : List Char} (ha : Blank a) (hb : Blank b) :
    cleanText (a ++ joinWith [' '] ts ++ b) = joinWith [' '] ts := by
  have hs := outputs_noBlank h hp
  unfold cleanText
  rw [strip_eval ha hb (join_head hs) (join_last hs), collapse_join _ hs]

/-- **C95** (blocks): what Python prints for a block of plain words, with blanks before and after, is read as the
text the exact values print. -/
theorem C95_block (t : List Char) (b : Block) (h : Block.ofText t = .ok b) (hp : ∀ w ∈ b.words, PlainWord w)
    (ts : List (List Char)) (ho : List.Forall₂ Outputs (printedWords b.gcodes b.modalParams) ts)
    (x y : List Char) (hx : Blank x) (hy : Blank y) :
    Block.ofText (x ++ joinWith [' '] ts ++ y) = Block.ofText b.str := by
  have hb := block_ok h
  have hpr : ∀ w ∈ printedWords b.gcodes b.modalParams, PlainWord w :=
    fun w hw => hp w (hb.perm.mem_iff.1 ((printed_perm _ _).mem_iff.1 hw))
  have hstr : b.str = joinWith [' '] ((printedWords b.gcodes b.modalParams).map Word.str) :=
    block_str_join _ _ hb.ws
  have h1 : text2words (cleanText (x ++ joinWith [' '] ts ++ y)) = .ok (printedWords b.gcodes b.modalParams) := by
    rw [outputs_clean ho hpr hx hy]; exact C95_words _ hpr _ ho
  have h2 : text2words (cleanText b.str) = .ok (printedWords b.gcodes b.modalParams) := by
    have := cleanText_words _ hpr [] [] blank_nil blank_nil
    rw [List.nil_append, List.append_nil, ← hstr] at this
    rw [this, hstr]
    exact (C03_remove_whitespace _ (fun w hw => (hpr w hw).1) (fun w hw => (hpr w hw).2.1)).1
  unfold Block.ofText
  rw [h1, h2]

/-- **C95** (lines): what Python prints for a line of plain words, with its comment and its macro, is read as
the text the exact values print. -/
theorem C95_line (t : List Char) (l : Line) (h : Line.ofText t = .ok l) (hp : ∀ w ∈ l.block.words, PlainWord w)
    (hcm : l.macro? = none ∨ ∀ c, l.comment = some (.semicolon c) → c = [])
    (ts : List (List Char)) (ho : List.Forall₂ Outputs (printedWords l.block.gcodes l.block.modalParams) ts) :
    Line.ofText (lineOf ts l.comment l.macro?) = Line.ofText l.str := by
  unfold Line.ofText at h
  cases h1 : Line.parts t with
  | error e => rw [h1] at h; cases h
  | ok p =>
    obtain ⟨bs, c, m⟩ := p
    rw [h1] at h
    simp only at h
    cases h2 : Block.ofText bs with
    | error e => rw [h2] at h; cases h
    | ok b =>
      rw [h2] at h
      cases h
      simp only at hp hcm ho ⊢
      have hb := block_ok h2
      have hcok : CommentOK m c ∧ ∀ m', m = some m' → ∃ r, m' = '%' :: r ∧ '\n' ∉ r := by
        unfold Line.parts at h1
        cases h3 : lineSplit t with
        | none => rw [h3] at h1; cases h1
        | some q =>
          obtain ⟨bc, m'⟩ := q
          rw [h3] at h1
          cases h1
          obtain ⟨f1, f2, f3, f4⟩ := lineSplit_facts h3
          exact ⟨splitLine_comment f1 f2 f3, f4⟩
      have hpr : ∀ w ∈ printedWords b.gcodes b.modalParams, PlainWord w :=
        fun w hw => hp w (hb.perm.mem_iff.1 ((printed_perm _ _).mem_iff.1 hw))
      have hstr : b.str = joinWith [' '] ((printedWords b.gcodes b.modalParams).map Word.str) :=
        block_str_join _ _ hb.ws
      -- the exact text
      have hsp : NoSpecial b.str := by rw [hstr]; exact plain_noSpecial _ hpr
      have hlast : ∀ x ∈ b.str.getLast?, isSpace x = false := by
        rw [hstr]
        apply join_last
        intro s hs
        obtain ⟨w, hwm, rfl⟩ := List.mem_map.1 hs
        exact ⟨by simp [Word.str], plain_str_no_blank (hpr w hwm)⟩
      have hpre : (if b.words = [] then [] else [b.str]) = [b.str] ∨
          ((if b.words = [] then [] else [b.str]) = [] ∧ b.str = []) := by
        by_cases hw : b.words = []
        · right
          obtain ⟨g0, m0⟩ := (block_words_nil hb).1 hw
          exact ⟨if_pos hw, by unfold Block.str; rw [g0, m0]; rfl⟩
        · left; exact if_neg hw
      obtain ⟨w, hparts, hwb⟩ := parts_printed b.str _ c m hsp hlast hpre hcok.1 hcok.2 hcm
      -- the text from doubles
      have hpre' : (if ts = [] then [] else [joinWith [' '] ts]) = [joinWith [' '] ts] ∨
          ((if ts = [] then [] else [joinWith [' '] ts]) = [] ∧ joinWith [' '] ts = []) := by
        by_cases hw : ts = []
        · right; exact ⟨if_pos hw, by rw [hw]; rfl⟩
        · left; exact if_neg hw
      obtain ⟨w', hparts', hwb'⟩ := parts_printed (joinWith [' '] ts) _ c m (outputs_noSpecial ho hpr)
        (join_last (outputs_noBlank ho hpr)) hpre' hcok.1 hcok.2 hcm
      have e1 := C95_block bs b h2 hp ts ho [] w' blank_nil hwb'
      have e2 : Block.ofText (b.str ++ w) = Block.ofText b.str := by
        unfold Block.ofText
        have hc1 := cleanText_words _ hpr [] w blank_nil hwb
        have hc2 := cleanText_words _ hpr [] [] blank_nil blank_nil
        rw [List.nil_append, ← hstr] at hc1 hc2
        rw [List.append_nil] at hc2
        rw [hc1, hc2]
      rw [List.nil_append] at e1
      unfold Line.ofText lineOf Line.str
      simp only [hparts, hparts', e1, e2]

/-- **C95** (programs): a machine reading the lines Python prints does what it does reading the lines the exact
values print. -/
theorem C95_program (ps : List (Line × List (List Char)))
    (h : ∀ p ∈ ps, (∃ t, Line.ofText t = .ok p.1) ∧ (∀ w ∈ p.1.block.words, PlainWord w) ∧
      (p.1.macro? = none ∨ ∀ c, p.1.comment = some (.semicolon c) → c = []) ∧
      List.Forall₂ Outputs (printedWords p.1.block.gcodes p.1.block.modalParams) p.2) (m : Machine) :
    readLines m (ps.map (fun p => lineOf p.2 p.1.comment p.1.macro?)) = readLines m (ps.map (fun p => p.1.str)) := by
  induction ps generalizing m with
  | nil => rfl
  | cons p ps ih =>
    obtain ⟨⟨t, h1⟩, h2, h3, h4⟩ := h p (by simp)
    have e : m.processStr (lineOf p.2 p.1.comment p.1.macro?) = m.processStr p.1.str := by
      unfold Machine.processStr
      rw [C95_line t p.1 h1 h2 h3 p.2 h4]
    simp only [List.map_cons, readLines, e]
    congr 1
    funext m'
    exact ih (fun q hq => h q (by simp [hq])) m'

/-! ### Examples -/

/-- The line `G1 X-0.0 Y.30 (up)`. -/
def zeroLine : Line :=
  ⟨⟨[⟨'G', .num 1⟩, ⟨'X', .num 0⟩, ⟨'Y', .num (3/10)⟩],
    [⟨.linearMove, ⟨'G', .num 1⟩, [⟨'X', .num 0⟩, ⟨'Y', .num (3/10)⟩], false⟩], []⟩, some (.brackets "up".toList), none⟩

theorem zeroLine_read : Line.ofText "G1 X-0.0 Y.30 (up)".toList = .ok zeroLine := by decide +kernel

theorem zeroLine_plain : ∀ w ∈ zeroLine.block.words, PlainWord w := by
  intro w hw
  have hw' : w = ⟨'G', .num 1⟩ ∨ w = ⟨'X', .num 0⟩ ∨ w = ⟨'Y', .num (3/10)⟩ := by simpa [zeroLine] using hw
  rcases hw' with rfl | rfl | rfl
  · refine ⟨?_, by decide, by decide⟩
    simp only [Printable, show kindOf 'G' = some .code from by decide]
    exact ⟨1, 0, by omega, by norm_num, by norm_num⟩
  · refine ⟨?_, by decide, by decide⟩
    simp only [Printable, show kindOf 'X' = some .flt from by decide]
    exact ⟨0, 0, by omega, by norm_num, by norm_num⟩
  · refine ⟨?_, by decide, by decide⟩
    simp only [Printable, show kindOf 'Y' = some .flt from by decide]
    exact ⟨3, 1, by omega, by norm_num, by norm_num⟩

/-- The doubles read from its text print `-0` for the value of X. -/
theorem zeroLine_outputs : List.Forall₂ Outputs (printedWords zeroLine.block.gcodes zeroLine.block.modalParams)
    ["G01".toList, "X-0".toList, "Y0.3".toList] := by
  have hg : printedWords zeroLine.block.gcodes zeroLine.block.modalParams =
      [⟨'G', .num 1⟩, ⟨'X', .num 0⟩, ⟨'Y', .num (3/10)⟩] := by
    decide +kernel
  rw [hg]
  refine .cons ?_ (.cons ?_ (.cons ?_ .nil))
  · have h := Outputs.code (w := ⟨'G', .num 1⟩) (q := 1) "1".toList (by decide) rfl
      ⟨[], ['1'], [], blank_nil, by unfold Digits; decide, by unfold Digits; decide, false, false, by simp, rfl, by decide +kernel⟩
      (by decide)
    have e : (F64.read "1".toList).cleanCode = "01".toList := by decide +kernel
    rw [e] at h
    exact h
  · have h := C95_read ⟨'X', .num 0⟩ (zeroLine_plain _ (by simp [zeroLine])).1 0 "-0.0".toList (by decide) rfl
      ⟨[], ['0'], ['0'], blank_nil, by unfold Digits; decide, by unfold Digits; decide, true, true, by simp, rfl, by decide +kernel⟩
    have e : (F64.read "-0.0".toList).cleanFloat = "-0".toList := by decide +kernel
    rw [e] at h
    exact h
  · have h := C95_read ⟨'Y', .num (3/10)⟩ (zeroLine_plain _ (by simp [zeroLine])).1 (3/10) ".30".toList (by decide) rfl
      ⟨[], [], ['3', '0'], blank_nil, by unfold Digits; decide, by unfold Digits; decide, false, true, by simp, rfl, by decide +kernel⟩
    have e : (F64.read ".30".toList).cleanFloat = "0.3".toList := by decide +kernel
    rw [e] at h
    exact h

example : lineOf ["G01".toList, "X-0".toList, "Y0.3".toList] zeroLine.comment zeroLine.macro? =
    "G01 X-0 Y0.3 (up)".toList := by decide +kernel
example : zeroLine.str = "G01 X0 Y0.3 (up)".toList := by decide +kernel
example : Line.ofText "G01 X-0 Y0.3 (up)".toList = Line.ofText zeroLine.str :=
  C95_line _ zeroLine zeroLine_read zeroLine_plain (.inl rfl) _ zeroLine_outputs
example : Block.ofText "G01 X-0 Y0.3 ".toList = Block.ofText zeroLine.block.str :=
  C95_block "G1 X-0.0 Y.30".toList zeroLine.block (by decide +kernel) zeroLine_plain _ zeroLine_outputs [] [' ']
    blank_nil blank_space
example (m : Machine) : readLines m ["G01 X-0 Y0.3 (up)".toList, "G01 X-0 Y0.3 (up)".toList] =
    readLines m [zeroLine.str, zeroLine.str] :=
  C95_program [(zeroLine, ["G01".toList, "X-0".toList, "Y0.3".toList]),
    (zeroLine, ["G01".toList, "X-0".toList, "Y0.3".toList])]
    (by
      intro p hp
      have : p = (zeroLine, ["G01".toList, "X-0".toList, "Y0.3".toList]) := by simpa using hp
      subst this
      exact ⟨⟨_, zeroLine_read⟩, zeroLine_plain, .inl rfl, zeroLine_outputs⟩) m
example : text2words "G01 X-0 Y0.3".toList =
    .ok (printedWords zeroLine.block.gcodes zeroLine.block.modalParams) :=
  C95_words _ (fun w hw => zeroLine_plain w (by simpa [zeroLine, printedWords, GCode.sortedParams] using
    (show w ∈ [(⟨'G', .num 1⟩ : Word), ⟨'X', .num 0⟩, ⟨'Y', .num (3/10)⟩] from by
      have hg : printedWords zeroLine.block.gcodes zeroLine.block.modalParams =
        [⟨'G', .num 1⟩, ⟨'X', .num 0⟩, ⟨'Y', .num (3/10)⟩] := by decide +kernel
      rwa [hg] at hw))) _ zeroLine_outputs

end Pygcode
