import Verif.Model.File
import Verif.Model.ModeText
import Verif.Model.NormArc
import Verif.Props.Modes
import Verif.Props.LinePrint
import Verif.Props.NormExpand
import Verif.Lemmas.Heap

/-!
# C102: files

A script reads a file by lines and prints its output by lines.  The result does not depend on how the lines of
the file are ended; and every line printed is one line, so what is printed is read back, from a file, as the
same lines: the theorems about the scripts' lists of lines are about files.
-/

namespace Pygcode
open Props Machine Spec

/-! ## Specification -/

/-- Text without a line ending. -/
def OneLine (s : List Char) : Prop := ∀ c ∈ s, c ≠ '\n' ∧ c ≠ '\r'

/-- The ways to end a line. -/
inductive Ending : List Char → Prop
  | lf : Ending ['\n']
  | crlf : Ending ['\r', '\n']
  | cr : Ending ['\r']

/-- The text of a file: lines, each followed by the ending, and a last one without (which may be empty). -/
def fileText (e : List Char) (ls : List (List Char)) (last : List Char) : List Char :=
  ls.flatMap (· ++ e) ++ last

/-- The lines of it. -/
def linesOf (ls : List (List Char)) (last : List Char) : List (List Char) := if last = [] then ls else ls ++ [last]

/-! ## Reading -/

theorem OneLine.nil : OneLine [] := fun _ h => nomatch h

theorem OneLine.append {a b : List Char} (ha : OneLine a) (hb : OneLine b) : OneLine (a ++ b) :=
  fun c hc => (List.mem_append.1 hc).elim (ha c) (hb c)

theorem OneLine.cons {c : Char} {s : List Char} (hc : c ≠ '\n' ∧ c ≠ '\r') (hs : OneLine s) : OneLine (c :: s) :=
  fun x hx => (List.mem_cons.1 hx).elim (fun h => h ▸ hc) (hs x)

theorem OneLine.subset {a b : List Char} (hb : OneLine b) (h : a ⊆ b) : OneLine a := fun c hc => hb c (h hc)

theorem OneLine.head {c : Char} {s : List Char} (h : OneLine (c :: s)) : c ≠ '\n' ∧ c ≠ '\r' := h c (by simp)

theorem OneLine.tail {c : Char} {s : List Char} (h : OneLine (c :: s)) : OneLine s :=
  fun x hx => h x (List.mem_cons_of_mem _ hx)

theorem oneLine_of_all {s : List Char} (h : s.all (fun c => c != '\n' && c != '\r') = true) : OneLine s := by
  intro c hc
  have := List.all_eq_true.1 h c hc
  simpa using this

theorem universal_cons {c : Char} {s : List Char} (h : c ≠ '\r') : universal (c :: s) = c :: universal s := by
  rw [universal]
  · exact fun _ h' => absurd h' h
  · exact fun h' => absurd h' h

theorem universal_cr {s : List Char} (h : ∀ r, s ≠ '\n' :: r) : universal ('\r' :: s) = '\n' :: universal s := by
  rw [universal]
  exact fun r hr => h r hr

theorem universal_oneLine {a s : List Char} (ha : OneLine a) : universal (a ++ s) = a ++ universal s := by
  induction a with
  | nil => rfl
  | cons c a ih => rw [List.cons_append, universal_cons ha.head.2, ih ha.tail, List.cons_append]

theorem universal_ending {e s : List Char} (he : Ending e) (hs : ∀ r, s ≠ '\n' :: r) :
    universal (e ++ s) = '\n' :: universal s := by
  cases he with
  | lf => exact universal_cons (by decide)
  | crlf => rfl
  | cr => exact universal_cr hs

theorem fileText_start {e : List Char} (he : Ending e) {ls : List (List Char)} (hls : ∀ l ∈ ls, OneLine l)
    {last : List Char} (hlast : OneLine last) : (e = ['\r'] → ∀ r, fileText e ls last ≠ '\n' :: r) := by
  intro h r hr
  subst h
  cases ls with
  | nil => exact (hlast '\n' (by rw [show last = '\n' :: r from hr]; simp)).1 rfl
  | cons l ls =>
    cases l with
    | nil => exact absurd (List.cons.inj hr).1 (by decide)
    | cons c l => exact ((hls (c :: l) (by simp)).head).1 (List.cons.inj hr).1

theorem universal_fileText {e : List Char} (he : Ending e) {ls : List (List Char)} (hls : ∀ l ∈ ls, OneLine l)
    {last : List Char} (hlast : OneLine last) : universal (fileText e ls last) = fileText ['\n'] ls last := by
  induction ls with
  | nil =>
    have := universal_oneLine (s := []) hlast
    simpa [fileText, universal] using this
  | cons l ls ih =>
    have ih := ih (fun x hx => hls x (List.mem_cons_of_mem _ hx))
    have hst := fileText_start he (fun x hx => hls x (List.mem_cons_of_mem l hx)) hlast
    have e1 : fileText e (l :: ls) last = l ++ (e ++ fileText e ls last) := by simp [fileText]
    have e2 : fileText ['\n'] (l :: ls) last = l ++ '\n' :: fileText ['\n'] ls last := by simp [fileText]
    rw [e1, e2, universal_oneLine (hls l (by simp)), ← ih]
    congr 1
    cases he with
    | lf => exact universal_cons (by decide)
    | crlf => rfl
    | cr => exact universal_cr (hst rfl)

theorem splitLines_line {l s : List Char} (hl : '\n' ∉ l) : splitLines (l ++ '\n' :: s) = (l ++ ['\n']) :: splitLines s := by
  induction l with
  | nil => rw [List.nil_append, splitLines, if_pos rfl]; rfl
  | cons c l ih =>
    have hc : c ≠ '\n' := fun h => hl (by simp [h])
    rw [List.cons_append, splitLines, if_neg hc, ih (fun h => hl (List.mem_cons_of_mem _ h))]
    rfl

theorem splitLines_last {l : List Char} (hl : '\n' ∉ l) : splitLines l = if l = [] then [] else [l] := by
  induction l with
  | nil => rfl
  | cons c l ih =>
    have hc : c ≠ '\n' := fun h => hl (by simp [h])
    rw [splitLines, if_neg hc, ih (fun h => hl (List.mem_cons_of_mem _ h))]
    by_cases h : l = []
    · subst h; rfl
    · rw [if_neg h, if_neg (by simp)]

theorem OneLine.no_nl {l : List Char} (h : OneLine l) : '\n' ∉ l := fun hm => (h _ hm).1 rfl

theorem fileLines_fileText {e : List Char} (he : Ending e) {ls : List (List Char)} (hls : ∀ l ∈ ls, OneLine l)
    {last : List Char} (hlast : OneLine last) :
    fileLines (fileText e ls last) = ls.map (· ++ ['\n']) ++ (if last = [] then [] else [last]) := by
  unfold fileLines
  rw [universal_fileText he hls hlast]
  induction ls with
  | nil =>
    have : fileText ['\n'] [] last = last := by simp [fileText]
    rw [this, splitLines_last hlast.no_nl]; rfl
  | cons l ls ih =>
    have e2 : fileText ['\n'] (l :: ls) last = l ++ '\n' :: fileText ['\n'] ls last := by simp [fileText]
    rw [e2, splitLines_line (hls l (by simp)).no_nl, ih (fun x hx => hls x (List.mem_cons_of_mem _ hx))]
    rfl

/-! ### A final line break is nothing -/

theorem lineSplit_nl {t : List Char} (h : '\n' ∉ t) : lineSplit (t ++ ['\n']) = lineSplit t := by
  induction t with
  | nil => rfl
  | cons c t ih =>
    have hc : c ≠ '\n' := fun h' => h (by simp [h'])
    have ht : '\n' ∉ t := fun h' => h (List.mem_cons_of_mem _ h')
    have h1 : ∀ x ∈ t, (x != '\n') = true := by
      intro x hx; rw [bne_iff_ne]; rintro rfl; exact ht hx
    have d1 : t.dropWhile (· != '\n') = [] := List.dropWhile_eq_nil_iff.2 h1
    have d2 : (t ++ ['\n']).dropWhile (· != '\n') = ['\n'] := by
      rw [List.dropWhile_append_of_pos h1]; rfl
    have t1 : t.takeWhile (· != '\n') = t := List.takeWhile_eq_self_iff.2 h1
    have t2 : (t ++ ['\n']).takeWhile (· != '\n') = t := by
      rw [List.takeWhile_append_of_pos h1]; simp
    have s1 : ((c :: (t ++ ['\n'])).all isSpace) = ((c :: t).all isSpace) := by
      simp only [List.all_cons, List.all_append, List.all_nil]
      rw [show isSpace '\n' = true from rfl]
      simp
    rw [List.cons_append]
    unfold lineSplit
    rw [d1, d2, t1, t2, s1, ih ht]
    rfl

theorem ofText_nl {t : List Char} (h : '\n' ∉ t) : Line.ofText (t ++ ['\n']) = Line.ofText t := by
  unfold Line.ofText Line.parts
  rw [lineSplit_nl h]

/-- Texts that make the same lines. -/
def SameLines (as bs : List (List Char)) : Prop := List.Forall₂ (fun a b => Line.ofText a = Line.ofText b) as bs

theorem sameLines_refl (as : List (List Char)) : SameLines as as := by
  induction as with
  | nil => exact .nil
  | cons a as ih => exact .cons rfl ih

theorem sameLines_nl {ls : List (List Char)} (h : ∀ l ∈ ls, OneLine l) : SameLines (ls.map (· ++ ['\n'])) ls := by
  induction ls with
  | nil => exact .nil
  | cons l ls ih => exact .cons (ofText_nl (h l (by simp)).no_nl) (ih fun x hx => h x (List.mem_cons_of_mem _ hx))

theorem sameLines_append {a b c d : List (List Char)} (h : SameLines a b) (h' : SameLines c d) : SameLines (a ++ c) (b ++ d) := by
  induction h with
  | nil => exact h'
  | cons h _ ih => exact .cons h ih

theorem sameLines_file {e : List Char} (he : Ending e) {ls : List (List Char)} (hls : ∀ l ∈ ls, OneLine l)
    {last : List Char} (hlast : OneLine last) : SameLines (fileLines (fileText e ls last)) (linesOf ls last) := by
  rw [fileLines_fileText he hls hlast]
  unfold linesOf
  by_cases h : last = []
  · rw [if_pos h, if_pos h, List.append_nil]; exact sameLines_nl hls
  · rw [if_neg h, if_neg h]
    exact sameLines_append (sameLines_nl hls) (sameLines_refl _)

theorem loopA_same (o : NormOpts) (x : ArcOpts) (fl : Floats) (fuel : ℕ) {as bs : List (List Char)} (h : SameLines as bs) :
    ∀ m, o.loopA x fl fuel m as = o.loopA x fl fuel m bs := by
  induction h with
  | nil => exact fun _ => rfl
  | cons h _ ih =>
    intro m
    rw [NormOpts.loopA, NormOpts.loopA, funext ih]
    congr 1
    unfold NormOpts.lineA
    rw [h]

theorem readLines_same {as bs : List (List Char)} (h : SameLines as bs) : ∀ m, readLines m as = readLines m bs := by
  induction h with
  | nil => exact fun _ => rfl
  | cons h _ ih =>
    intro m
    unfold readLines processStr
    rw [h, funext ih]

theorem cropLoop_same (f l : ℕ → Position → Except Err Bool) {as bs : List (List Char)} (h : SameLines as bs) :
    ∀ pre i m, cropLoop f l pre i m as = cropLoop f l pre i m bs := by
  induction h with
  | nil => exact fun _ _ _ => rfl
  | cons h _ ih =>
    intro pre i m
    unfold cropLoop
    rw [h]
    simp only [ih]

/-! ## What is printed -/

/-- All texts of a gcode are without line endings. -/
def GOne (g : GCode) : Prop := OneLine g.word.str ∧ ∀ w ∈ g.params, OneLine w.str

theorem OneLine.join {sep : List Char} (hs : OneLine sep) {ls : List (List Char)} (h : ∀ l ∈ ls, OneLine l) :
    OneLine (joinWith sep ls) := by
  intro c hc
  rcases Pygcode.mem_joinWith hc with h1 | ⟨l, hl, h1⟩
  · exact hs c h1
  · exact h l hl c h1

theorem one_digits {l : List Char} (h : Digits l) : OneLine l := by
  intro c hc
  have := h c hc
  constructor <;> rintro rfl <;> exact absurd this (by decide)

theorem one_pad (p r : ℕ) : OneLine (padDigits p r) := by
  unfold padDigits
  refine OneLine.append (fun c hc => ?_) (one_digits (digits_toDigits r))
  rw [List.eq_of_mem_replicate hc]; decide

theorem one_strip {l : List Char} (h : OneLine l) : OneLine (stripZeros l) := by
  refine h.subset fun c hc => ?_
  unfold stripZeros at hc
  exact List.mem_reverse.1 ((List.dropWhile_sublist _).subset (List.mem_reverse.1 hc))

theorem one_fixed (N p : ℕ) : OneLine (fixedStr N p) := by
  unfold fixedStr
  refine OneLine.append (one_digits (digits_toDigits _)) ?_
  split
  · exact OneLine.nil
  · exact OneLine.cons (by decide) (one_strip (one_pad _ _))

theorem one_fmtGPos (a : ℚ) : OneLine (fmtGPos a) := by
  unfold fmtGPos
  simp only
  split
  · exact one_fixed _ _
  · refine OneLine.append (one_fixed _ _) (OneLine.cons (by decide) ?_)
    unfold expStr
    refine OneLine.cons ?_ (one_pad _ _)
    split <;> decide

theorem one_fmtG (q : ℚ) : OneLine (fmtG q) := by
  unfold fmtG
  split
  · exact oneLine_of_all (by decide)
  · split
    · exact OneLine.cons (by decide) (one_fmtGPos _)
    · exact one_fmtGPos _

theorem one_letter {c : Char} (h : wordKind c ≠ none) : c ≠ '\n' ∧ c ≠ '\r' := by
  constructor <;> rintro rfl <;> exact h (by decide)

theorem one_num {c : Char} (hc : c ≠ '\n' ∧ c ≠ '\r') (q : ℚ) : OneLine (Word.str ⟨c, .num q⟩) := by
  refine OneLine.cons hc ?_
  unfold Word.valueStr
  split
  · exact one_fmtG _
  · unfold cleanCode
    split
    · exact OneLine.cons (by decide) (one_fmtG _)
    · exact one_fmtG _
  · exact one_fmtG _
  · rename_i h; cases h
  · exact OneLine.nil

theorem one_str {c : Char} (hc : c ≠ '\n' ∧ c ≠ '\r') {s : List Char} (hs : OneLine s) : OneLine (Word.str ⟨c, .str s⟩) := by
  refine OneLine.cons hc ?_
  unfold Word.valueStr
  split
  all_goals (rename_i h; first | (cases h; done) | (cases h; exact hs) | skip)
  all_goals contradiction

/-! ### Lines -/

theorem one_collapse (s : List Char) : OneLine (Pygcode.collapse s) := by
  induction s with
  | nil => exact OneLine.nil
  | cons c cs ih =>
    unfold Pygcode.collapse
    split
    · split
      · split
        · exact ih
        · exact OneLine.cons (by decide) ih
      · exact oneLine_of_all (by decide)
    · rename_i h
      refine OneLine.cons ?_ ih
      constructor <;> rintro rfl <;> exact h rfl

theorem nextLetter_tail {t r : List Char} {l : Char} (h : nextLetter t = some (l, r)) : r ⊆ t := by
  induction t with
  | nil => cases h
  | cons c cs ih =>
    unfold nextLetter at h
    split_ifs at h
    · cases h; exact List.subset_cons_self _ _
    · exact fun x hx => List.mem_cons_of_mem _ (ih h hx)

theorem one_lex (n : ℕ) : ∀ {t : List Char} {ws : List Word}, OneLine t → lexAux n t = .ok ws → ∀ w ∈ ws, OneLine w.str := by
  induction n with
  | zero => intro t ws _ h; cases h
  | succ n ih =>
    intro t ws ht h
    unfold lexAux at h
    split at h
    · split at h
      · cases h; exact fun _ h => nomatch h
      · cases h
    · rename_i l r hl
      split at h
      · cases h
      · rename_i k hk
        split at h
        · cases h
        · rename_i v rest hv
          have hs := (matchValue_sound hv).1
          have hr : OneLine r := ht.subset (nextLetter_tail hl)
          split at h
          · cases h
          · rename_i ws' hws
            cases h
            intro w hw
            rcases List.mem_cons.1 hw with rfl | hw
            · have hc := one_letter (c := l) (by rw [hk]; simp)
              have hv1 : OneLine v := hr.subset (by rw [hs]; exact List.subset_append_left _ _)
              cases k with
              | flt => exact one_num hc _
              | code => exact one_num hc _
              | posint => exact one_num hc _
              | tool => exact one_str hc hv1
              | name => exact one_str hc hv1
            · exact ih (hr.subset (by rw [hs]; exact List.subset_append_right _ _)) hws w hw

theorem one_grouped {ws : List Word} (hws : ∀ w ∈ ws, OneLine w.str) {gs : List GCode} {un : List Word}
    (h : words2gcodes ws = .ok (gs, un)) : (∀ g ∈ gs, GOne g) ∧ ∀ w ∈ un, OneLine w.str := by
  have hp := C16_conserved ws gs un h
  have key : ∀ w ∈ gs.flatMap (fun g => g.word :: g.params) ++ un, OneLine w.str := fun w hw => hws w (hp.mem_iff.1 hw)
  refine ⟨fun g hg => ⟨?_, fun w hw => ?_⟩, fun w hw => key w (List.mem_append_right _ hw)⟩
  · exact key _ (List.mem_append_left _ (List.mem_flatMap.2 ⟨g, hg, by simp⟩))
  · exact key _ (List.mem_append_left _ (List.mem_flatMap.2 ⟨g, hg, by simp [hw]⟩))

/-- All texts of a line are without line endings. -/
structure LOne (l : Line) : Prop where
  words : ∀ w ∈ l.block.words, OneLine w.str
  gcodes : ∀ g ∈ l.block.gcodes, GOne g
  modal : ∀ w ∈ l.block.modalParams, OneLine w.str
  comment : ∀ c, l.comment = some c → OneLine c.str
  mac : ∀ m, l.macro? = some m → OneLine m

theorem semiAt_sub {s t : List Char} (h : semiAt s = some t) : t ⊆ s := by
  unfold semiAt at h
  split at h
  · rename_i r hr
    simp only at h
    split_ifs at h
    cases h
    intro x hx
    have h1 := (List.dropWhile_sublist _).subset hx
    have h2 : x ∈ s.dropWhile isSpace := by rw [hr]; exact List.mem_cons_of_mem _ h1
    exact (List.dropWhile_sublist _).subset h2
  · cases h

theorem semiFind_sub {s : List Char} : ∀ {b t}, semiFind s = some (b, t) → t ⊆ s := by
  induction s with
  | nil =>
    intro b t h
    unfold semiFind at h
    split at h
    · rename_i t' ht; cases h; exact semiAt_sub ht
    · cases h
  | cons c cs ih =>
    intro b t h
    unfold semiFind at h
    split at h
    · rename_i t' ht; cases h; exact semiAt_sub ht
    · simp only [Option.map_eq_some_iff] at h
      obtain ⟨⟨b', t'⟩, h1, h2⟩ := h
      cases h2
      exact fun x hx => List.mem_cons_of_mem _ (ih h1 hx)

theorem bracketScan_sub (s : List Char) : ∀ (o : Option (List Char)), ∀ c ∈ (bracketScan o s).2, c ⊆ o.getD [] ++ s := by
  induction s with
  | nil => intro o c hc; cases o <;> (unfold bracketScan at hc; cases hc)
  | cons a s ih =>
    intro o c hc
    cases o with
    | none =>
      unfold bracketScan at hc
      split at hc
      · have := ih _ c hc
        exact fun x hx => List.mem_cons_of_mem _ (by simpa using this hx)
      · have := ih _ c hc
        exact fun x hx => List.mem_cons_of_mem _ (by simpa using this hx)
    | some acc =>
      unfold bracketScan at hc
      split at hc
      · rcases List.mem_cons.1 hc with rfl | hc
        · intro x hx; simp at hx ⊢; exact .inl hx
        · have := ih _ c hc
          intro x hx
          have := this hx
          simp at this ⊢
          exact .inr (.inr this)
      · have := ih _ c hc
        intro x hx
        have := this hx
        simp at this ⊢
        tauto

theorem lineSplit_sub {t bc : List Char} {m : Option (List Char)} (h : lineSplit t = some (bc, m)) :
    bc ⊆ t ∧ ∀ m', m = some m' → m' ⊆ t := by
  induction t generalizing bc m with
  | nil => cases h; exact ⟨List.Subset.refl _, by simp⟩
  | cons c cs ih =>
    unfold lineSplit at h
    split_ifs at h with h1 h2 h3
    · cases h
      refine ⟨by simp, fun m' hm' => ?_⟩
      cases hm'
      rw [h1.1]
      exact List.cons_subset_cons _ (List.takeWhile_sublist _).subset
    · cases h; exact ⟨by simp, by simp⟩
    · simp only [Option.map_eq_some_iff] at h
      obtain ⟨⟨b', m'⟩, h1, h2⟩ := h
      cases h2
      obtain ⟨i1, i2⟩ := ih h1
      exact ⟨List.cons_subset_cons _ i1, fun m hm => fun x hx => List.mem_cons_of_mem _ (i2 m hm hx)⟩

theorem splitLine_comment_one {t : List Char} (ht : OneLine t) {c : Comment} (h : (splitLine t).2 = some c) : OneLine c.str := by
  unfold splitLine at h
  rw [rstripNewlines_id ht.no_nl] at h
  simp only at h
  split at h
  · rename_i b t' hs
    cases h
    exact OneLine.append (oneLine_of_all (by decide)) (ht.subset (semiFind_sub hs))
  · split_ifs at h
    cases h
    refine OneLine.append (OneLine.append (oneLine_of_all (by decide)) ?_) (oneLine_of_all (by decide))
    refine OneLine.join (oneLine_of_all (by decide)) fun l hl => ht.subset ?_
    simpa using bracketScan_sub t none l hl

theorem one_ofText {t : List Char} (ht : OneLine t) {l : Line} (h : Line.ofText t = .ok l) : LOne l := by
  unfold Line.ofText Line.parts at h
  cases hs : lineSplit t with
  | none => rw [hs] at h; cases h
  | some p =>
    obtain ⟨bc, m⟩ := p
    rw [hs] at h
    simp only at h
    obtain ⟨s1, s2⟩ := lineSplit_sub hs
    split at h
    · cases h
    · rename_i b hb
      cases h
      unfold Block.ofText at hb
      split at hb
      · cases hb
      · rename_i ws hws
        have h1 := one_lex _ (one_collapse _) hws
        split at hb
        · cases hb
        · rename_i gs mp hg
          obtain ⟨g1, g2⟩ := one_grouped h1 hg
          rw [if_pos rfl] at hb
          split at hb
          · cases hb
          · cases hb
            exact ⟨h1, g1, g2, fun c hc => splitLine_comment_one (ht.subset s1) hc, fun m' hm' => ht.subset (s2 m' hm')⟩

/-! ### The machine -/

theorem GOne.sub {g : GCode} (hg : GOne g) {c : Cls} {ps : List Word} {b : Bool} (h : ps ⊆ g.params) :
    GOne ⟨c, g.word, ps, b⟩ := ⟨hg.1, fun w hw => hg.2 w (h hw)⟩

theorem make_fold (ps : List Word) : ∀ {g g' : GCode}, ps.foldlM GCode.addParam g = .ok g' →
    g'.word = g.word ∧ g'.params = g.params ++ ps := by
  induction ps with
  | nil => intro g g' h; cases h; simp
  | cons w ps ih =>
    intro g g' h
    rw [List.foldlM_cons] at h
    unfold GCode.addParam at h
    split_ifs at h
    · cases h
    · cases h
    · have h : ps.foldlM GCode.addParam { g with params := g.params ++ [w] } = .ok g' := h
      obtain ⟨h1, h2⟩ := ih h
      exact ⟨h1, by rw [h2]; simp⟩

theorem GOne.copy {g c : GCode} (hg : GOne g) (h : g.modalCopy = .ok c) : GOne c := by
  obtain ⟨h1, h2⟩ := make_fold _ h
  refine ⟨by rw [h1]; exact hg.1, fun w hw => ?_⟩
  rw [h2] at hw
  have hw := hw
  simp at hw
  exact hg.2 w hw.1

/-- The texts of the machine's mode are without line endings. -/
def MOne (m : Machine) : Prop := ModeAll GOne m.mode

theorem setLoop_one (gs : List GCode) (hg : ∀ g ∈ gs, GOne g) : ∀ {md : Mode}, ModeAll GOne md →
    ModeAll GOne (md.setLoop gs).1 := by
  induction gs with
  | nil => exact fun h => h
  | cons g gs ih =>
    intro md h
    have ih := fun md => @ih (fun x hx => hg x (List.mem_cons_of_mem _ hx)) md
    unfold Mode.setLoop Mode.setOne
    cases g.cls.group with
    | none => exact ih _ h
    | some k =>
      simp only
      cases hc : g.modalCopy with
      | error e => exact h
      | ok c =>
        refine ih _ ?_
        intro j y hy
        by_cases hj : j = k
        · subst hj; rw [Function.update_self] at hy; cases hy; exact (hg g (by simp)).copy hc
        · rw [Function.update_of_ne hj] at hy; exact h j y hy

theorem mem_execSort {gs : List GCode} {g : GCode} (h : g ∈ execSort gs) : g ∈ gs := (execSort_stable gs).1.mem_iff.1 h

theorem setMode_one {m : Machine} (hm : MOne m) {gs : List GCode} (hg : ∀ g ∈ gs, GOne g) : MOne (m.setMode gs).1 := by
  have := setLoop_one (execSort gs) (fun g h => hg g (mem_execSort h)) hm
  unfold Machine.setMode Mode.setMode
  generalize Mode.setLoop m.mode (execSort gs) = r at this
  obtain ⟨md, e⟩ := r
  cases e with
  | some e => exact this
  | none =>
    simp only
    cases md.coordSystem <;> exact this

theorem process_one {m : Machine} (hm : MOne m) {g : GCode} (hg : GOne g) : MOne (m.process g).1 := by
  have h1 := setMode_one hm (gs := [g]) (by simpa using hg)
  unfold process andThen
  generalize m.setMode [g] = r at h1
  obtain ⟨m', e⟩ := r
  cases e with
  | some e => exact h1
  | none =>
    show ModeAll GOne (m'.effect g).1.mode
    rw [effect_mode_any]
    split
    · intro k x hx
      by_cases hk : k = 1
      · subst hk; rw [Function.update_self] at hx; cases hx
      · rw [Function.update_of_ne hk] at hx; exact h1 k x hx
    · exact h1

theorem steps_one (gs : List GCode) (hg : ∀ g ∈ gs, GOne g) : ∀ {m : Machine}, MOne m → MOne (m.processAll gs).1 := by
  induction gs with
  | nil => exact fun h => h
  | cons g gs ih =>
    intro m hm
    have h1 := process_one hm (hg g (by simp))
    unfold processAll andThen
    generalize m.process g = r at h1
    obtain ⟨m', e⟩ := r
    cases e with
    | some e => exact h1
    | none => exact ih (fun x hx => hg x (List.mem_cons_of_mem _ hx)) h1

theorem override_one (mp : List Word) (hmp : ∀ w ∈ mp, OneLine w.str) : ∀ {ps : List Word}, (∀ w ∈ ps, OneLine w.str) →
    ∀ w ∈ override ps mp, OneLine w.str := by
  induction mp with
  | nil => exact fun h => h
  | cons a mp ih =>
    intro ps hps
    refine ih (fun x hx => hmp x (List.mem_cons_of_mem _ hx)) (ps := overrideOne ps a) ?_
    intro w hw
    unfold overrideOne at hw
    split at hw
    · obtain ⟨p, hp, rfl⟩ := List.mem_map.1 hw
      split
      · exact hmp a (by simp)
      · exact hps p hp
    · rcases List.mem_append.1 hw with h | h
      · exact hps w h
      · rw [List.mem_singleton.1 h]; exact hmp a (by simp)

theorem modalGcode_one {m : Machine} (hm : MOne m) {mp : List Word} (hmp : ∀ w ∈ mp, OneLine w.str) {og : Option GCode}
    (h : m.modalGcode mp = .ok og) : ∀ g ∈ og, GOne g := by
  unfold modalGcode at h
  by_cases h0 : mp = []
  · rw [if_pos h0] at h; cases h; simp
  rw [if_neg h0] at h
  cases hmo : m.mode.motion with
  | none =>
    rw [hmo] at h; simp only at h
    split_ifs at h
    cases h; simp
  | some x =>
    rw [hmo] at h; simp only at h
    have hx : GOne x := hm 1 x hmo
    cases hw : words2gcodes (x.word :: override x.params mp) with
    | error e => rw [hw] at h; cases h
    | ok r =>
      obtain ⟨gs, un⟩ := r
      rw [hw] at h; simp only at h
      have hgs := (one_grouped (ws := x.word :: override x.params mp) (by
        intro w hw
        rcases List.mem_cons.1 hw with rfl | hw
        · exact hx.1
        · exact override_one mp hmp hx.2 w hw) hw).1
      by_cases hc : un ≠ [] ∧ m.ignoreInvalid = false
      · rw [if_pos hc] at h; cases h
      · rw [if_neg hc] at h
        rcases gs with _ | ⟨a, _ | ⟨b, r⟩⟩
        · cases h; simp
        · simp only [Except.ok.injEq] at h
          subst h
          intro g hg
          cases hg
          exact hgs a (by simp)
        · cases h

theorem processGcodes_one {m : Machine} (hm : MOne m) {gs : List GCode} (hg : ∀ g ∈ gs, GOne g) {mp : List Word}
    (hmp : ∀ w ∈ mp, OneLine w.str) : MOne (m.processGcodes gs mp).1 := by
  unfold processGcodes
  cases h : m.modalGcode mp with
  | error e => exact hm
  | ok og =>
    refine steps_one _ (fun g hgm => ?_) hm
    rcases List.mem_append.1 (mem_execSort hgm) with h1 | h1
    · exact hg g h1
    · exact modalGcode_one hm hmp h g (by simpa using h1)

/-! ### Writing -/

theorem GOne.str {g : GCode} (hg : GOne g) : OneLine g.str := by
  unfold GCode.str
  refine OneLine.append ?_ ?_
  · split
    · intro c hc; rw [List.eq_of_mem_replicate hc]; decide
    · exact hg.1
  · intro c hc
    obtain ⟨w, hw, hc⟩ := List.mem_flatMap.1 hc
    have hw' : w ∈ g.params := by
      unfold GCode.sortedParams at hw
      exact (List.perm_insertionSort _ _).mem_iff.1 hw
    exact (OneLine.cons (by decide) (hg.2 w hw')) c hc

theorem one_pyName (c : Cls) : OneLine c.pyName.toList :=
  oneLine_of_all (Cls.forall_of_all (p := fun c => c.pyName.toList.all (fun x => x != '\n' && x != '\r'))
    (by decide +kernel) c)

theorem GOne.repr {g : GCode} (hg : GOne g) : OneLine (NormOpts.reprText g) := by
  unfold NormOpts.reprText
  refine OneLine.append (OneLine.append (OneLine.append (OneLine.append (OneLine.append (oneLine_of_all (by decide))
    (one_pyName _)) (oneLine_of_all (by decide))) hg.1) ?_) (oneLine_of_all (by decide))
  split
  · exact OneLine.nil
  · refine OneLine.append (OneLine.append (oneLine_of_all (by decide)) (OneLine.join (oneLine_of_all (by decide)) ?_))
      (oneLine_of_all (by decide))
    intro l hl
    obtain ⟨w, hw, rfl⟩ := List.mem_map.1 hl
    unfold GCode.sortedParams at hw
    exact hg.2 w ((List.perm_insertionSort _ _).mem_iff.1 hw)

variable (o : NormOpts)

theorem one_lineText {gs : List GCode} (hg : ∀ g ∈ gs, GOne g) {mp : List Word} (hmp : ∀ w ∈ mp, OneLine w.str)
    {c : Option Comment} (hc : ∀ x ∈ c, OneLine x.str) {mac : Option (List Char)} (hmac : ∀ x ∈ mac, OneLine x) :
    OneLine (o.lineText gs mp c mac) := by
  unfold NormOpts.lineText
  simp only
  have hgs : ∀ g ∈ (if o.rmGcodes = [] then gs else gs.filter (fun g => decide (g.word ∉ o.rmGcodes))), GOne g := by
    intro g h
    split at h
    · exact hg g h
    · exact hg g (List.mem_of_mem_filter h)
  have hb : OneLine (joinWith [' '] ((if o.rmGcodes = [] then gs else gs.filter (fun g => decide (g.word ∉ o.rmGcodes))).map
      GCode.str ++ mp.map Word.str)) := by
    refine OneLine.join (oneLine_of_all (by decide)) fun l hl => ?_
    rcases List.mem_append.1 hl with h | h
    · obtain ⟨g, hm, rfl⟩ := List.mem_map.1 h; exact (hgs g hm).str
    · obtain ⟨w, hm, rfl⟩ := List.mem_map.1 h; exact hmp w hm
  have hb' : ∀ (p : Prop) [Decidable p] (b : List Char), OneLine b → OneLine (if p then b.filter (fun x => !isSpace x) else b) := by
    intro p _ b h
    split
    · exact h.subset (List.filter_sublist.subset)
    · exact h
  have hb := hb' (o.rmWhitespace = true) _ hb
  generalize (if o.rmWhitespace = true then _ else _) = b at hb
  refine OneLine.join (oneLine_of_all (by decide)) fun l hl => ?_
  rcases List.mem_append.1 hl with h | h
  · rcases List.mem_append.1 h with h | h
    · split at h
      · cases h
      · rw [List.mem_singleton.1 h]
        exact hb
    · split at h
      · cases h
      · obtain ⟨x, hx, rfl⟩ := Option.map_eq_some_iff.1 (Option.mem_toList.1 h)
        exact hc x hx
  · exact hmac l (Option.mem_toList.1 h)

/-- Lines without line endings, and such a machine. -/
def Good (r : NormRes) : Prop := (∀ t ∈ r.out, OneLine t) ∧ MOne r.m

theorem Good.andThen {r : NormRes} (hr : Good r) {f : Machine → NormRes} (hf : ∀ m, MOne m → Good (f m)) :
    Good (r.andThen f) := by
  unfold NormRes.andThen
  split
  · have h2 := hf r.m hr.2
    exact ⟨fun t ht => (List.mem_append.1 ht).elim (hr.1 t) (h2.1 t), h2.2⟩
  · exact hr

theorem good_nil {m : Machine} (hm : MOne m) (s : Status) : Good ⟨[], m, s⟩ := ⟨fun _ h => (nomatch h), hm⟩

theorem good_ofM {r : MRes} (h : MOne r.1) : Good (.ofM r) := by
  obtain ⟨m, _ | e⟩ := r <;> exact good_nil h _

theorem good_writeOne {gs : List GCode} (hg : ∀ g ∈ gs, GOne g) {mp : List Word} (hmp : ∀ w ∈ mp, OneLine w.str)
    {c : Option Comment} (hc : ∀ x ∈ c, OneLine x.str) {mac : Option (List Char)} (hmac : ∀ x ∈ mac, OneLine x) :
    ∀ t ∈ o.writeOne gs mp c mac, OneLine t := by
  intro t ht
  unfold NormOpts.writeOne at ht
  split at ht
  · cases ht
  · rw [List.mem_singleton.1 ht]; exact one_lineText o hg hmp hc hmac

theorem good_put {m : Machine} (hm : MOne m) {gs : List GCode} (hg : ∀ g ∈ gs, GOne g) {mp : List Word}
    (hmp : ∀ w ∈ mp, OneLine w.str) {c : Option Comment} (hc : ∀ x ∈ c, OneLine x.str) {mac : Option (List Char)}
    (hmac : ∀ x ∈ mac, OneLine x) : Good (.put m (o.write gs mp c mac)) := by
  unfold NormOpts.write
  split
  · exact good_nil hm _
  · split
    · refine ⟨fun t ht => ?_, hm⟩
      obtain ⟨g, h1, h2⟩ := List.mem_flatMap.1 ht
      exact good_writeOne o (by simpa using hg g (mem_execSort h1)) (by simp) hc (by simp) t h2
    · exact ⟨good_writeOne o hg hmp hc hmac, hm⟩

theorem good_putProcess {m : Machine} (hm : MOne m) {gs : List GCode} (hg : ∀ g ∈ gs, GOne g) : Good (o.putProcess m gs) := by
  unfold NormOpts.putProcess
  split
  · exact good_nil hm _
  · refine (good_put o hm hg (by simp) (by simp) (by simp)).andThen fun m hm => good_ofM ?_
    exact processGcodes_one hm hg (by simp)

theorem good_putAll {gs : List GCode} (hg : ∀ g ∈ gs, GOne g) (s : Status) : ∀ {m : Machine}, MOne m → Good (o.putAll m gs s) := by
  induction gs with
  | nil => exact fun hm => good_nil hm _
  | cons g gs ih =>
    intro m hm
    unfold NormOpts.putAll
    exact (good_put o hm (by simpa using hg g (by simp)) (by simp) (by simp) (by simp)).andThen fun m hm =>
      ih (fun x hx => hg x (List.mem_cons_of_mem _ hx)) hm

/-! ### Expansions -/

/-- A generator of gcodes whose texts are without line endings. -/
def YOne (r : Gen) : Prop := ∀ g ∈ r.1, GOne g

theorem YOne.nil (s : Status) : YOne ([], s) := fun _ h => nomatch h

theorem YOne.pre {l : List GCode} (hl : ∀ g ∈ l, GOne g) {r : Gen} (hr : YOne r) : YOne (Gen.pre l r) :=
  fun g hg => (List.mem_append.1 hg).elim (hl g) (hr g)

theorem YOne.andThen {r s : Gen} (hr : YOne r) (hs : YOne s) : YOne (Gen.andThen r s) := by
  unfold Gen.andThen
  split
  · exact fun g hg => (List.mem_append.1 hg).elim (hr g) (hs g)
  · exact hr

theorem omitFrom_one (gs : List GCode) (hg : ∀ g ∈ gs, GOne g) : ∀ m, YOne (omitFrom m gs) := by
  induction gs with
  | nil => exact fun m => YOne.nil _
  | cons g gs ih =>
    intro m
    unfold omitFrom
    simp only
    split
    · exact YOne.nil _
    · refine YOne.pre ?_ (ih (fun x hx => hg x (List.mem_cons_of_mem _ hx)) _)
      intro x hx
      rw [List.mem_singleton.1 hx]
      split
      · exact hg g (by simp)
      · exact hg g (by simp)

theorem omitGen_one {r : Gen} (hr : YOne r) : YOne (o.omitGen r) := by
  unfold NormOpts.omitGen
  split
  · exact hr
  · exact (omitFrom_one _ hr _).andThen (YOne.nil _)

theorem one_axis (a : Axis) (q : ℚ) : OneLine (Word.str ⟨a.letter, .num q⟩) := one_num (by cases a <;> decide) q

theorem coordWords_one (p : Position) : ∀ w ∈ coordWords p, OneLine w.str := by
  intro w hw
  obtain ⟨a, -, rfl⟩ := List.mem_map.1 hw
  exact one_axis a _

theorem abs2relLoop_one (gs : List GCode) (hg : ∀ g ∈ gs, GOne g) (s : Status) : ∀ m, YOne (abs2relLoop m gs s) := by
  induction gs with
  | nil => exact fun m => YOne.nil _
  | cons g gs ih =>
    intro m
    unfold abs2relLoop
    cases h : abs2relOne m g with
    | mk m' r =>
      cases r with
      | error e => exact YOne.nil _
      | ok out =>
        refine YOne.pre ?_ (ih (fun x hx => hg x (List.mem_cons_of_mem _ hx)) m')
        have hg := hg g (by simp)
        unfold abs2relOne at h
        split at h
        · cases h
        · split at h
          · cases h
          · split at h
            · cases h
            · split_ifs at h
              · cases h; simpa using hg
              · split at h
                · cases h
                · split_ifs at h
                  · cases h; simp
                  · split at h
                    · cases h
                    · rename_i gs' un hw
                      split at h
                      · cases h
                      · rename_i x hx
                        cases h
                        intro y hy
                        rw [List.mem_singleton.1 hy]
                        refine (one_grouped ?_ hw).1 x (List.mem_of_getLast? hx)
                        intro w hw
                        rcases List.mem_cons.1 hw with rfl | hw
                        · exact hg.1
                        · exact coordWords_one _ w hw
              · cases h

theorem gone_rapidZ (z : ℚ) : GOne (rapidZ z) := by
  refine ⟨one_num (by decide) _, fun w hw => ?_⟩
  simp only [rapidZ, List.mem_singleton] at hw; subst hw; exact one_num (by decide) _

theorem gone_feedZ (z : ℚ) : GOne (feedZ z) := by
  refine ⟨one_num (by decide) _, fun w hw => ?_⟩
  simp only [feedZ, List.mem_singleton] at hw; subst hw; exact one_num (by decide) _

theorem gone_rapidXY (x y : ℚ) : GOne (rapidXY x y) := by
  refine ⟨one_num (by decide) _, fun w hw => ?_⟩
  simp only [rapidXY, List.mem_cons, List.not_mem_nil, or_false] at hw
  rcases hw with rfl | rfl <;> exact one_num (by decide) _

theorem gone_linearTo (v : Q3) : GOne (linearTo v) := by
  refine ⟨one_num (by decide) _, fun w hw => ?_⟩
  simp only [linearTo, List.mem_cons, List.not_mem_nil, or_false] at hw
  rcases hw with rfl | rfl | rfl <;> exact one_num (by decide) _

theorem gone_rapidTo (cs : List (Axis × ℚ)) : GOne (rapidTo cs) := by
  refine ⟨one_num (by decide) _, fun w hw => ?_⟩
  obtain ⟨c, -, rfl⟩ := List.mem_map.1 hw
  exact one_axis _ _

theorem gone_if {p : Prop} [Decidable p] {g : GCode} (hg : GOne g) : ∀ x ∈ (if p then [g] else []), GOne x := by
  intro x hx
  split at hx
  · rw [List.mem_singleton.1 hx]; exact hg
  · cases hx

theorem drillLoop_one (chip : Bool) (r b d : ℚ) (n : ℕ) : ∀ c l, YOne (drillLoop chip r b d n c l) := by
  induction n with
  | zero => exact fun _ _ => YOne.nil _
  | succ n ih =>
    intro c l
    have hm : ∀ z, ∀ x ∈ (if l + 1 / 10 < r then [rapidZ (l + 1 / 10)] else []) ++ [feedZ z], GOne x := by
      intro z x hx
      rcases List.mem_append.1 hx with h | h
      · exact gone_if (gone_rapidZ _) x h
      · rw [List.mem_singleton.1 h]; exact gone_feedZ _
    unfold drillLoop
    simp only
    generalize (if c + d < b then b else c + d) = z
    split
    · exact hm _
    · refine YOne.pre ?_ (ih _ _)
      intro x hx
      rcases List.mem_append.1 hx with h | h
      · exact hm _ x h
      · rw [List.mem_singleton.1 h]
        split <;> exact gone_rapidZ _

theorem hole_one (fuel : ℕ) (g : GCode) (sz : Except Err ℚ) (toR : Bool) (r b : ℚ) (x y : Option ℚ) :
    YOne (hole fuel g sz toR r b x y) := by
  unfold hole
  split
  · exact YOne.nil _
  · split
    · exact YOne.nil _
    · refine YOne.pre (gone_if (gone_rapidZ _)) ?_
      split
      · refine YOne.pre ?_ ?_
        · intro x hx
          rcases List.mem_cons.1 hx with rfl | hx
          · exact gone_rapidXY _ _
          · exact gone_if (gone_rapidZ _) x hx
        · split
          · exact YOne.nil _
          · refine (drillLoop_one _ _ _ _ _ _ _).andThen ?_
            split
            · exact YOne.nil _
            · intro x hx
              rw [List.mem_singleton.1 hx]
              exact gone_rapidZ _
      · exact YOne.nil _

theorem holes_one (fuel : ℕ) (g : GCode) (start : Position) (incr toR : Bool) (n : ℕ) :
    ∀ x y, YOne (holes fuel g start incr toR n x y) := by
  induction n with
  | zero => exact fun _ _ => YOne.nil _
  | succ n ih =>
    intro x y
    unfold holes
    split
    · split
      · exact YOne.nil _
      · split
        · exact (hole_one _ _ _ _ _ _ _ _).andThen (ih _ _)
        · exact YOne.nil _
    · split
      · exact (hole_one _ _ _ _ _ _ _ _).andThen (ih _ _)
      · exact YOne.nil _

theorem inner_one (fuel : ℕ) (g : GCode) (start : Position) (incr toR : Bool) : YOne (cannedInner fuel g start incr toR) := by
  unfold cannedInner
  split
  · exact YOne.nil _
  · exact holes_one _ _ _ _ _ _ _ _

theorem simplify_one (fuel : ℕ) (g : GCode) (start : Position) (plane : Cls) (incr toR : Bool) (axes : Finset Axis) :
    YOne (simplify fuel g start plane incr toR axes) := by
  unfold simplify
  split
  · exact YOne.nil _
  · split
    · exact YOne.nil _
    · split
      · unfold abs2rel
        split
        · exact YOne.nil _
        · exact abs2relLoop_one _ (inner_one _ _ _ _ _) _ _
      · exact inner_one _ _ _ _ _

/-! ### The script -/

theorem one_brackets {t : List Char} (h : OneLine t) : ∀ x ∈ some (Comment.brackets t), OneLine x.str := by
  intro x hx
  cases hx
  exact OneLine.append (OneLine.append (oneLine_of_all (by decide)) h) (oneLine_of_all (by decide))

theorem splitGcodes_sub {gs a b c : List GCode} {k : Cls} (h : splitGcodes gs k true = (a, b, c)) :
    a ⊆ gs ∧ b ⊆ gs ∧ c ⊆ gs := by
  have hs : execSort gs ⊆ gs := fun _ h => mem_execSort h
  unfold splitGcodes at h
  simp only [if_true] at h
  split at h
  · cases h; exact ⟨hs, by simp, by simp⟩
  · cases h
    refine ⟨?_, ?_, ?_⟩
    · exact fun _ h => hs (List.take_subset _ _ h)
    · exact fun _ h => hs (List.drop_subset _ _ (List.take_subset _ _ h))
    · exact fun _ h => hs (List.drop_subset _ _ h)

theorem good_rest {m : Machine} (hm : MOne m) {c : Option Comment} (hc : ∀ x ∈ c, OneLine x.str) :
    Good (if c = none then ⟨[], m, .done⟩ else .put m (o.write [] [] c)) := by
  split
  · exact good_nil hm _
  · exact good_put o hm (by simp) (by simp) hc (by simp)

theorem good_expandLine (fuel : ℕ) {m : Machine} (hm : MOne m) {gs : List GCode} (hg : ∀ g ∈ gs, GOne g)
    {c : Option Comment} (hc : ∀ x ∈ c, OneLine x.str) : Good (o.expandLine fuel m gs c) := by
  unfold NormOpts.expandLine
  split
  · rename_i bs g as h
    obtain ⟨h1, h2, h3⟩ := splitGcodes_sub h
    have hgo : GOne g := hg g (h2 (by simp))
    refine (good_putProcess o hm fun x hx => hg x (h1 hx)).andThen fun m hm => ?_
    refine (good_put o hm (by simp) (by simp) (one_brackets (OneLine.append (oneLine_of_all (by decide)) hgo.repr))
      (by simp)).andThen fun m hm => ?_
    refine Good.andThen ?_ fun m hm => ?_
    · unfold NormOpts.putExpansion
      split
      · exact good_nil hm _
      · exact good_putAll o (omitGen_one o (simplify_one _ _ _ _ _ _ _)) _ hm
    · refine (good_ofM (processGcodes_one hm (by simpa using hgo) (by simp))).andThen fun m hm => ?_
      exact (good_putProcess o hm fun x hx => hg x (h3 hx)).andThen fun m hm => good_rest o hm hc
  · exact good_nil hm _

theorem good_arcLine (x : ArcOpts) (fl : Floats) {m : Machine} (hm : MOne m) {gs : List GCode} (hg : ∀ g ∈ gs, GOne g)
    {c : Option Comment} (hc : ∀ x ∈ c, OneLine x.str) : Good (o.arcLine x fl m gs c) := by
  unfold NormOpts.arcLine
  split
  · rename_i bs g as h
    obtain ⟨h1, h2, h3⟩ := splitGcodes_sub h
    have hgo : GOne g := hg g (h2 (by simp))
    refine (good_putProcess o hm fun x hx => hg x (h1 hx)).andThen fun m hm => ?_
    refine (good_put o hm (by simp) (by simp) (one_brackets (OneLine.append (oneLine_of_all (by decide)) hgo.repr))
      (by simp)).andThen fun m hm => ?_
    refine Good.andThen ?_ fun m hm => ?_
    · unfold NormOpts.putArc
      split
      · exact good_nil hm _
      · split
        · exact good_nil hm _
        · refine good_putAll o (omitGen_one o ?_) _ hm
          intro y hy
          obtain ⟨v, -, rfl⟩ := List.mem_map.1 hy
          exact gone_linearTo v
    · refine (good_ofM (processGcodes_one hm (by simpa using hgo) (by simp))).andThen fun m hm => ?_
      exact (good_putProcess o hm fun x hx => hg x (h3 hx)).andThen fun m hm => good_rest o hm hc
  · exact good_nil hm _

theorem blockModal_one {m : Machine} (hm : MOne m) {b : Block} (hg : ∀ g ∈ b.gcodes, GOne g)
    (hmp : ∀ w ∈ b.modalParams, OneLine w.str) {gs : List GCode} (h : m.blockModalGcodes b = .ok gs) : ∀ g ∈ gs, GOne g := by
  unfold blockModalGcodes at h
  cases hg' : m.modalGcode b.modalParams with
  | error e => rw [hg'] at h; cases h
  | ok og =>
    rw [hg'] at h; cases h
    intro g hgm
    rcases List.mem_append.1 (mem_execSort hgm) with h1 | h1
    · exact hg g h1
    · exact modalGcode_one hm hmp hg' g (by simpa using h1)

theorem erase_sub (un mp : List Word) : un.foldl List.erase mp ⊆ mp := by
  induction un generalizing mp with
  | nil => exact fun _ h => h
  | cons w un ih => exact fun _ h => List.erase_subset (ih _ h)

theorem clean_one {m : Machine} {l : Line} (hl : LOne l) {b : Block} (h : m.cleanBlock l.block = .ok b) :
    LOne { l with block := b } := by
  have key : b.words = l.block.words ∧ b.gcodes = l.block.gcodes ∧ b.modalParams ⊆ l.block.modalParams := by
    unfold cleanBlock at h
    split at h
    · cases h; exact ⟨rfl, rfl, by simp⟩
    · split at h
      · cases h; exact ⟨rfl, rfl, by simp⟩
      · split at h
        · cases h
        · cases h; exact ⟨rfl, rfl, erase_sub _ _⟩
  exact ⟨key.1 ▸ hl.words, key.2.1 ▸ hl.gcodes, fun w hw => hl.modal w (key.2.2 hw), hl.comment, hl.mac⟩

theorem good_lineA (x : ArcOpts) (fl : Floats) (fuel : ℕ) {m : Machine} (hm : MOne m) {t : List Char} (ht : OneLine t) :
    Good (o.lineA x fl fuel m t) := by
  unfold NormOpts.lineA
  cases hl : Line.ofText t with
  | error e => exact good_nil hm _
  | ok l =>
    simp only
    have h1 := one_ofText ht hl
    have key : ∀ l', (if o.rmInvalid = true then (m.cleanBlock l.block).map (fun b => { l with block := b }) else .ok l) = .ok l' →
        LOne l' := by
      intro l' h
      split at h
      · cases hc : m.cleanBlock l.block with
        | error e => rw [hc] at h; cases h
        | ok b => rw [hc] at h; cases h; exact clean_one h1 hc
      · cases h; exact h1
    generalize (if o.rmInvalid = true then (m.cleanBlock l.block).map (fun b => { l with block := b }) else .ok l) = r at key
    cases r with
    | error e => exact good_nil hm _
    | ok l =>
      have hl := key l rfl
      simp only
      cases hgs : m.blockModalGcodes l.block with
      | error e => exact good_nil hm _
      | ok gs =>
        have hg := blockModal_one hm hl.gcodes hl.modal hgs
        simp only
        split
        · exact good_arcLine o x fl hm hg (fun c hc => hl.comment c hc)
        · split
          · exact good_expandLine o fuel hm hg (fun c hc => hl.comment c hc)
          · unfold NormOpts.plainLine
            refine Good.andThen ?_ fun m hm => good_ofM (processGcodes_one hm hl.gcodes hl.modal)
            split
            · exact good_put o hm hg (by simp) (fun c hc => hl.comment c hc) (fun c hc => hl.mac c hc)
            · exact good_put o hm hl.gcodes hl.modal (fun c hc => hl.comment c hc) (fun c hc => hl.mac c hc)

theorem good_finish {m : Machine} (hm : MOne m) : Good (o.finish m) := by
  have lit : ∀ (t : List Char), t.all (fun c => c != '\n' && c != '\r') = true → ∀ x ∈ some (Comment.brackets t), OneLine x.str :=
    fun t h => one_brackets (oneLine_of_all h)
  unfold NormOpts.finish
  refine Good.andThen (Good.andThen (Good.andThen (Good.andThen ?_ fun m hm => ?_) fun m hm => ?_) fun m hm => ?_)
    fun m hm => ?_
  · unfold NormOpts.finishComment
    split
    · exact good_put o hm (by simp) (by simp) (lit _ (by decide)) (by simp)
    · exact good_nil hm _
  · unfold NormOpts.finishAbsolute
    have : GOne ⟨.absoluteDistanceMode, ⟨'G', .num 90⟩, [], false⟩ := ⟨one_num (by decide) _, by simp⟩
    split <;> split
    all_goals first | exact good_nil hm _ | exact good_put o hm (by simpa using this) (by simp) (by simp) (by simp)
  · unfold NormOpts.finishSpindle
    have : GOne ⟨.stopSpindle, ⟨'M', .num 5⟩, [], false⟩ := ⟨one_num (by decide) _, by simp⟩
    split
    · exact good_put o hm (by simpa using this) (by simp) (lit _ (by decide)) (by simp)
    · exact good_nil hm _
  · unfold NormOpts.finishXY
    split
    · split
      · exact good_nil hm _
      · exact (good_put o hm (by simpa using gone_rapidTo _) (by simp) (lit _ (by decide)) (by simp)).andThen fun m hm =>
          good_put o hm (by simpa using gone_rapidTo _) (by simp) (lit _ (by decide)) (by simp)
    · exact good_nil hm _
  · unfold NormOpts.finishZ
    split
    · exact good_put o hm (by simpa using gone_rapidTo _) (by simp) (lit _ (by decide)) (by simp)
    · exact good_nil hm _

theorem good_loopA (x : ArcOpts) (fl : Floats) (fuel : ℕ) (ts : List (List Char)) (hts : ∀ t ∈ ts, OneLine t) :
    ∀ {m : Machine}, MOne m → Good (o.loopA x fl fuel m ts) := by
  induction ts with
  | nil => exact fun hm => good_nil hm _
  | cons t ts ih =>
    intro m hm
    exact (good_lineA o x fl fuel hm (hts t (by simp))).andThen fun m hm =>
      ih (fun y hy => hts y (List.mem_cons_of_mem _ hy)) hm

/-! ### Cropping -/

theorem one_crop_preamble {m : Machine} (hm : MOne m) : ∀ t ∈ (cropPreamble m).1, OneLine t := by
  have hmode : OneLine m.mode.str := by
    refine OneLine.join (oneLine_of_all (by decide)) fun l hl => ?_
    obtain ⟨g, hg, rfl⟩ := List.mem_map.1 hl
    unfold Mode.gcodes at hg
    obtain ⟨k, -, hk⟩ := List.mem_filterMap.1 hg
    exact (hm k g hk).str
  have pre : ∀ (l : List (List Char)) (r : Printed), (∀ t ∈ l, OneLine t) → (∀ t ∈ r.1, OneLine t) →
      ∀ t ∈ (Printed.pre l r).1, OneLine t := fun l r h1 h2 t ht => (List.mem_append.1 ht).elim (h1 t) (h2 t)
  have one : ∀ cs, ∀ t ∈ [(rapidTo cs).str], OneLine t := fun cs t ht => by
    rw [List.mem_singleton.1 ht]; exact (gone_rapidTo cs).str
  unfold cropPreamble
  refine pre _ _ ?_ ?_
  · intro t ht
    rcases List.mem_append.1 ht with h | h
    · unfold cropModeLines at h
      split at h
      · cases h
      · rcases List.mem_cons.1 h with rfl | h
        · exact oneLine_of_all (by decide)
        · rw [List.mem_singleton.1 h]; exact hmode
    · rw [List.mem_singleton.1 h]; exact oneLine_of_all (by decide)
  · split
    · exact fun _ h => nomatch h
    · split
      · exact fun _ h => nomatch h
      · refine pre _ _ (one _) ?_
        split
        · exact fun _ h => nomatch h
        · refine pre _ _ (one _) ?_
          split
          · exact fun _ h => nomatch h
          · intro t ht
            rcases List.mem_cons.1 ht with rfl | h
            · exact (gone_rapidTo _).str
            · rw [List.mem_singleton.1 h]; exact OneLine.nil

theorem LOne.str {l : Line} (hl : LOne l) : OneLine l.str := by
  unfold Line.str
  refine OneLine.join (oneLine_of_all (by decide)) fun t ht => ?_
  rcases List.mem_append.1 ht with h | h
  · rcases List.mem_append.1 h with h | h
    · split at h
      · cases h
      · rw [List.mem_singleton.1 h]
        refine OneLine.join (oneLine_of_all (by decide)) fun x hx => ?_
        rcases List.mem_append.1 hx with h | h
        · obtain ⟨g, hm, rfl⟩ := List.mem_map.1 h; exact (hl.gcodes g hm).str
        · obtain ⟨w, hm, rfl⟩ := List.mem_map.1 h; exact hl.modal w hm
    · obtain ⟨x, hx, rfl⟩ := Option.map_eq_some_iff.1 (Option.mem_toList.1 h)
      exact hl.comment x hx
  · exact hl.mac t (Option.mem_toList.1 h)

theorem one_cropLoop (f l : ℕ → Position → Except Err Bool) (ts : List (List Char)) (hts : ∀ t ∈ ts, OneLine t) :
    ∀ (pre : Bool) (i : ℕ) (m : Machine), MOne m → ∀ t ∈ (cropLoop f l pre i m ts).1, OneLine t := by
  induction ts with
  | nil => exact fun _ _ _ _ _ h => nomatch h
  | cons t ts ih =>
    intro pre i m hm
    have ih := ih (fun x hx => hts x (List.mem_cons_of_mem _ hx))
    unfold cropLoop
    cases hl : Line.ofText t with
    | error e => exact fun _ h => nomatch h
    | ok ln =>
      have hln := one_ofText (hts t (by simp)) hl
      have hm' : MOne (m.processBlock ln.block).1 := processGcodes_one hm hln.gcodes hln.modal
      simp only
      generalize m.processBlock ln.block = r at hm'
      obtain ⟨m', e⟩ := r
      cases e with
      | some e => exact fun _ h => nomatch h
      | none =>
        simp only
        split
        · exact fun _ h => nomatch h
        · split
          · exact fun _ h => nomatch h
          · exact ih _ _ _ hm'
          · have hp : ∀ t ∈ (if pre = true then cropPreamble m.copy else ([], none)).1, OneLine t := by
              split
              · exact one_crop_preamble hm
              · exact fun _ h => nomatch h
            generalize (if pre = true then cropPreamble m.copy else ([], none)) = q at hp
            obtain ⟨out, e⟩ := q
            cases e with
            | some e => exact hp
            | none =>
              simp only
              split
              · exact hp
              · exact hp
              · intro x hx
                rcases List.mem_append.1 hx with h | h
                · rcases List.mem_append.1 h with h | h
                  · exact hp x h
                  · rw [List.mem_singleton.1 h]; exact hln.str
                · exact ih _ _ _ hm' x h

/-! ### Any text -/

theorem universal_no_cr (s : List Char) : '\r' ∉ universal s := by
  induction h : s.length using Nat.strong_induction_on generalizing s with
  | _ n ih =>
    cases s with
    | nil => simp [universal]
    | cons c s =>
      have h1 := ih s.length (by rw [← h]; simp) s rfl
      by_cases hc : c = '\r'
      · subst hc
        by_cases hr : ∃ r, s = '\n' :: r
        · obtain ⟨r, rfl⟩ := hr
          have h2 := ih r.length (by rw [← h]; simp) r rfl
          show '\r' ∉ '\n' :: universal r
          simpa using h2
        · rw [universal_cr (fun r hr' => hr ⟨r, hr'⟩)]
          simpa using h1
      · rw [universal_cons hc]
        intro hm
        rcases List.mem_cons.1 hm with h2 | h2
        · exact hc h2.symm
        · exact h1 h2

theorem splitLines_lines (s : List Char) (h : '\r' ∉ s) :
    ∃ ls, (∀ l ∈ ls, OneLine l) ∧ SameLines (splitLines s) ls := by
  have one : ∀ a : List Char, '\n' ∉ a → '\r' ∉ a → OneLine a := fun a h1 h2 c hc =>
    ⟨fun e => h1 (e ▸ hc), fun e => h2 (e ▸ hc)⟩
  induction hl : s.length using Nat.strong_induction_on generalizing s with
  | _ n ih =>
    by_cases hn : '\n' ∈ s
    · obtain ⟨a, b, rfl, ha⟩ := first_split hn
      obtain ⟨ls, h1, h2⟩ := ih b.length (by rw [← hl]; simp; omega) b (fun hb => h (by simp [hb])) rfl
      have hone := one a ha (fun hb => h (by simp [hb]))
      refine ⟨a :: ls, fun l hm => ?_, ?_⟩
      · rcases List.mem_cons.1 hm with rfl | hm
        · exact hone
        · exact h1 l hm
      · rw [splitLines_line ha]
        exact .cons (ofText_nl ha) h2
    · rw [splitLines_last hn]
      by_cases h0 : s = []
      · rw [if_pos h0]; exact ⟨[], by simp, .nil⟩
      · rw [if_neg h0]; exact ⟨[s], by simpa using one s hn h, sameLines_refl _⟩

/-- Any file reads as some lines. -/
theorem fileLines_lines (s : List Char) : ∃ ls, (∀ l ∈ ls, OneLine l) ∧ SameLines (fileLines s) ls :=
  splitLines_lines _ (universal_no_cr s)

theorem one_words_any {t : List Char} {l : Line} (h : Line.ofText t = .ok l) : ∀ g ∈ l.block.gcodes, GOne g := by
  unfold Line.ofText at h
  split at h
  · cases h
  · split at h
    · cases h
    · rename_i b hb
      cases h
      unfold Block.ofText at hb
      split at hb
      · cases hb
      · rename_i ws hws
        have h1 := one_lex _ (one_collapse _) hws
        split at hb
        · cases hb
        · rename_i gs mp hg
          rw [if_pos rfl] at hb
          split at hb
          · cases hb
          · cases hb; exact (one_grouped h1 hg).1

theorem gcodesOfLines_one (ls : List (List Char)) : ∀ {gs : List GCode}, gcodesOfLines ls = .ok gs → ∀ g ∈ gs, GOne g := by
  induction ls with
  | nil => intro gs h; cases h; exact fun _ h => nomatch h
  | cons l ls ih =>
    intro gs h
    unfold gcodesOfLines at h
    split at h
    · cases h
    · rename_i ln hln
      split at h
      · cases h
      · rename_i gs' hgs
        cases h
        intro g hg
        rcases List.mem_append.1 hg with h | h
        · exact one_words_any hln g h
        · exact ih hgs g h

/-- A mode made from text. -/
theorem modeText_one {t : List Char} {md : Mode} (h : Mode.ofText t = .ok md) : ModeAll GOne md := by
  unfold Mode.ofText at h
  split at h
  · cases h
  · rename_i gs hgs
    have := setLoop_one (execSort gs) (fun g hg => gcodesOfLines_one _ hgs g (mem_execSort hg)) (md := Mode.null)
      (by intro k g hk; cases hk)
    split at h
    · cases h
    · rename_i md' hmd
      cases h
      unfold Mode.setMode at hmd
      rw [hmd] at this
      exact this

/-- Printed lines are read back. -/
theorem fileLines_printed {ls : List (List Char)} (h : ∀ l ∈ ls, OneLine l) : fileLines (printed ls) = ls.map (· ++ ['\n']) := by
  have := fileLines_fileText .lf h OneLine.nil
  simpa [fileText, printed] using this

/-! ## C102 -/

/-- **C102**: the scripts, and the virtual machine, do the same for a file whichever of the three line endings
its lines have, and whether or not the last line has one: what they do for the list of its lines. -/
theorem C102_read {e : List Char} (he : Ending e) (ls : List (List Char)) (hls : ∀ l ∈ ls, OneLine l)
    (last : List Char) (hlast : OneLine last) :
    (∀ (o : NormOpts) (x : ArcOpts) (fl : Floats) (fuel : ℕ) (md : Mode),
      o.runA x fl fuel md (fileLines (fileText e ls last)) = o.runA x fl fuel md (linesOf ls last)) ∧
    (∀ r, crop r (fileLines (fileText e ls last)) = crop r (linesOf ls last)) ∧
    ∀ m, readLines m (fileLines (fileText e ls last)) = readLines m (linesOf ls last) := by
  have h := sameLines_file he hls hlast
  refine ⟨fun o x fl fuel md => ?_, fun r => cropLoop_same _ _ h _ _ _, fun m => readLines_same h m⟩
  unfold NormOpts.runA
  rw [loopA_same o x fl fuel h]

/-- **C102**: whatever the file, the options and the start mode (made from text), each line that pygcode-norm
prints is one line, also if it ends with an exception; so the text it prints, read as a file, is the lines that
it printed. -/
theorem C102_norm (o : NormOpts) (x : ArcOpts) (fl : Floats) (fuel : ℕ) (t : List Char) (md : Mode)
    (hmd : Mode.ofText t = .ok md) (s : List Char) :
    let out := (o.runA x fl fuel md (fileLines s)).out
    (∀ l ∈ out, OneLine l) ∧ fileLines (printed out) = out.map (· ++ ['\n']) ∧
      ∀ m, readLines m (fileLines (printed out)) = readLines m out := by
  intro out
  have h : ∀ l ∈ out, OneLine l := by
    obtain ⟨ls, h1, h2⟩ := fileLines_lines s
    have hm : MOne (o.machine md) := modeText_one hmd
    show ∀ l ∈ ((o.loopA x fl fuel (o.machine md) (fileLines s)).andThen o.finish).out, OneLine l
    rw [loopA_same o x fl fuel h2]
    exact ((good_loopA o x fl fuel ls h1 hm).andThen fun m hm => good_finish o hm).1
  exact ⟨h, fileLines_printed h, fun m => by rw [fileLines_printed h]; exact readLines_same (sameLines_nl h) m⟩

/-- **C102**: the same for pygcode-crop. -/
theorem C102_crop (r : CropRange) (s : List Char) :
    let out := (crop r (fileLines s)).1
    (∀ l ∈ out, OneLine l) ∧ fileLines (printed out) = out.map (· ++ ['\n']) ∧
      ∀ m, readLines m (fileLines (printed out)) = readLines m out := by
  intro out
  have h : ∀ l ∈ out, OneLine l := by
    obtain ⟨ls, h1, h2⟩ := fileLines_lines s
    show ∀ l ∈ (cropLoop r.isFirst r.isLast true 0 newNull (fileLines s)).1, OneLine l
    rw [cropLoop_same _ _ h2]
    exact one_cropLoop _ _ ls h1 _ _ _ (by intro k g hk; cases hk)
  exact ⟨h, fileLines_printed h, fun m => by rw [fileLines_printed h]; exact readLines_same (sameLines_nl h) m⟩

/-- A file of texts is never split elsewhere: form feeds and other separators stay within a line. -/
example : fileLines ['G', '1', '\x0c', 'X', '1', '\r', '\n', '\r', 'G', '0', '\n', '\r', 'Z'] =
    [['G', '1', '\x0c', 'X', '1', '\n'], ['\n'], ['G', '0', '\n'], ['\n'], ['Z']] := by decide +kernel

/-- Non-trivial cases: a program in a file with CRLF and no ending of the last line. -/
example := C102_read .crlf (["G90 G1 X1 (a)", "", "%m"].map String.toList)
  (by intro l hl
      have h : ((["G90 G1 X1 (a)", "", "%m"].map String.toList).all fun l => l.all fun c => c != '\n' && c != '\r') = true := by
        decide
      exact oneLine_of_all (List.all_eq_true.1 h l hl))
  "G0 Z5".toList (oneLine_of_all (by decide))

/-- The normalized program as a file. -/
example : printed (({} : NormOpts).loop 0 newNull (fileLines "G90 G1 X1.00\r\nX2 (a)\r\n\r\n%m".toList)).out =
    "G90 G01 X1\nX2 (a)\n\n%m\n".toList := by decide +kernel

/-- The default start mode of pygcode-norm is read. -/
theorem normDefault_read : ∃ md, Mode.ofText normDefaultMode = .ok md := by
  have : (match Mode.ofText normDefaultMode with | .ok _ => true | .error _ => false) = true := by decide +kernel
  cases h : Mode.ofText normDefaultMode with
  | ok md => exact ⟨md, rfl⟩
  | error e => rw [h] at this; cases this

/-- Non-trivial cases: with the default start mode. -/
example (fl : Floats) (md : Mode) (h : Mode.ofText normDefaultMode = .ok md) := C102_norm
  { singles := true } ⟨true, (.mid, .inside), 1 / 100⟩ fl 10 normDefaultMode md h "G2 X1 Y1 R5 (a\rG81 X1 Z-1 R1".toList

example := C102_crop ⟨some [⟨'N', .eq, 2⟩], none⟩ "G90 G1 X1\rX2 (a)\rX3".toList

end Pygcode
