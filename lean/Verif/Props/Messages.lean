import Verif.Model.Messages
import Verif.Props.Modal
import Verif.Props.GCodeObj
import Verif.Lemmas.Lex

/-!
# C111: what the messages of exceptions name
-/

namespace Pygcode.Props
open Pygcode Pygcode.Spec Pygcode.Machine

/-! ## Specification -/

/-- How reading a text as words fails, and the message: some words are read, then either a letter has
no value after it, or no letter is left in what remains of the line although something other than
blanks is. -/
inductive LexFails : List Char → List Char → Prop
  | rest {t} : (¬ ∃ junk c s, t = junk ++ c :: s ∧ (∀ j ∈ junk, j ≠ '\n') ∧ IsLetter c) → ¬ Blank t →
      LexFails t (chars! "block code remaining '" ++ t ++ chars! "'")
  | value {junk c s k} : (∀ j ∈ junk, ¬ IsLetter j ∧ j ≠ '\n') → IsLetter c → kindOf c.toUpper = some k →
      (¬ ∃ v r, LongestValue k s v r) →
      LexFails (junk ++ c :: s) (chars! "word '" ++ [c.toUpper] ++ chars! "' value invalid")
  | word {junk c s v r k m} : (∀ j ∈ junk, ¬ IsLetter j ∧ j ≠ '\n') → IsLetter c →
      kindOf c.toUpper = some k → LongestValue k s v r → LexFails r m → LexFails (junk ++ c :: s) m

/-- `a` and `b` are words with one letter given to one gcode, `b` after `a`; the gcode is the first to
which a letter is given twice, and `b` its first word with a letter given before. -/
def FirstTwice (ws : List Word) (role : ℕ → Role) (a b : Word) : Prop :=
  ∃ before d after, gcodesOf ws role = before ++ d :: after ∧
    (∀ x ∈ before, (x.2.2.map Word.letter).Nodup) ∧
    ∃ p q, d.2.2 = p ++ b :: q ∧ (p.map Word.letter).Nodup ∧ a ∈ p ∧ a.letter = b.letter

/-- Two gcodes that may not be in one block. -/
def Clash (a b : GCode) : Prop := a.word = b.word ∨ (a.cls.group = b.cls.group ∧ a.cls.group ≠ none)

/-- The words a machine cannot use: without a motion mode all of them; otherwise, for each letter that
the motion's gcode does not take, in order of first occurrence, the last word with that letter. -/
def CannotUse (m : Machine) (mp un : List Word) : Prop :=
  match m.mode.motion with
  | none => un = mp
  | some g =>
    (un.map Word.letter) = ((mp.map Word.letter).filter (fun l => decide (l ∉ g.cls.params))).eraseDups ∧
    ∀ w, w ∈ un ↔ w.letter ∉ g.cls.params ∧
      ∃ pre post, mp = pre ++ w :: post ∧ ∀ x ∈ post, x.letter ≠ w.letter

/-! ## Reading words -/

theorem nextLetter_none_iff (t : List Char) : nextLetter t = none ↔
    ¬ ∃ junk c s, t = junk ++ c :: s ∧ (∀ j ∈ junk, j ≠ '\n') ∧ IsLetter c := by
  induction t with
  | nil => simp [nextLetter]
  | cons a t ih =>
    unfold nextLetter
    by_cases ha : isWordLetter a = true
    · rw [if_pos ha]
      simp only [reduceCtorEq, false_iff, not_not]
      exact ⟨[], a, t, rfl, by simp, (isLetter_iff a).1 ha⟩
    · rw [if_neg ha]
      have ha' : ¬ IsLetter a := fun h => ha ((isLetter_iff a).2 h)
      by_cases hn : a = '\n'
      · rw [if_pos hn]
        simp only [true_iff]
        rintro ⟨junk, c, s, h, hj, hc⟩
        cases junk with
        | nil => simp only [List.nil_append, List.cons.injEq] at h; exact ha' (h.1 ▸ hc)
        | cons j junk =>
          simp only [List.cons_append, List.cons.injEq] at h
          exact hj j (by simp) (h.1 ▸ hn)
      · rw [if_neg hn, ih, not_iff_not]
        constructor
        · rintro ⟨junk, c, s, h, hj, hc⟩
          refine ⟨a :: junk, c, s, by rw [h]; rfl, ?_, hc⟩
          intro j h
          rcases List.mem_cons.1 h with rfl | h
          · exact hn
          · exact hj j h
        · rintro ⟨junk, c, s, h, hj, hc⟩
          cases junk with
          | nil => simp only [List.nil_append, List.cons.injEq] at h; exact absurd (h.1 ▸ hc) ha'
          | cons j junk =>
            simp only [List.cons_append, List.cons.injEq] at h
            exact ⟨junk, c, s, h.2, fun x hx => hj x (by simp [hx]), hc⟩

theorem lexMsg_sound (n : ℕ) : ∀ t m, Msg.lexAux n t = some m → LexFails t m := by
  induction n with
  | zero => intro t m h; cases h
  | succ n ih =>
    intro t m h
    unfold Msg.lexAux at h
    cases hnl : nextLetter t with
    | none =>
      rw [hnl] at h
      simp only at h
      by_cases hb : t.all isSpace = true
      · rw [if_pos hb] at h; cases h
      · rw [if_neg hb] at h
        cases h
        exact .rest ((nextLetter_none_iff t).1 hnl) (fun h' => hb (List.all_eq_true.2 h'))
    | some p =>
      obtain ⟨l, s⟩ := p
      rw [hnl] at h
      obtain ⟨junk, c, rfl, rfl, hc, hj⟩ := nextLetter_sound hnl
      obtain ⟨k, hk⟩ := kind_some_of_letter hc
      have hkk : kindOf c.toUpper = some k := by rw [← wordKind_eq_kindOf]; exact hk
      simp only [hk] at h
      cases hm : matchValue k s with
      | none =>
        rw [hm] at h
        cases h
        refine .value hj hc hkk ?_
        rintro ⟨v, r, hv⟩
        rw [matchValue_iff.2 hv] at hm; cases hm
      | some q =>
        obtain ⟨v, r⟩ := q
        rw [hm] at h
        exact .word hj hc hkk (matchValue_iff.1 hm) (ih _ _ h)

theorem lexMsg_step {n : ℕ} {junk s : List Char} {c : Char} {k : VKind}
    (hj : ∀ j ∈ junk, ¬ IsLetter j ∧ j ≠ '\n') (hc : IsLetter c) (hk : kindOf c.toUpper = some k) :
    Msg.lexAux (n + 1) (junk ++ c :: s) =
      match matchValue k s with
      | none => some (Msg.badValue c.toUpper)
      | some (_, rest) => Msg.lexAux n rest := by
  rw [Msg.lexAux, nextLetter_eval hj hc]
  rw [← wordKind_eq_kindOf] at hk
  simp only [hk]
  rfl

theorem lexMsg_complete {t m : List Char} (h : LexFails t m) : ∀ n, t.length < n →
    Msg.lexAux n t = some m ∧ Pygcode.lexAux n t = .error .wordStr := by
  induction h with
  | @rest t h1 h2 =>
    intro n hn
    obtain ⟨n, rfl⟩ : ∃ k, n = k + 1 := ⟨n - 1, by omega⟩
    have hb : ¬ t.all isSpace = true := fun h => h2 (List.all_eq_true.1 h)
    rw [Msg.lexAux, Pygcode.lexAux, (nextLetter_none_iff _).2 h1]
    simp only
    rw [if_neg hb, if_neg hb]
    exact ⟨rfl, rfl⟩
  | @value junk c s k hj hc hk hv =>
    intro n hn
    obtain ⟨n, rfl⟩ : ∃ k, n = k + 1 := ⟨n - 1, by omega⟩
    have hm : matchValue k s = none := by
      cases hm : matchValue k s with
      | none => rfl
      | some q => exact absurd ⟨_, _, matchValue_iff.1 hm⟩ hv
    have hk' := hk
    rw [← wordKind_eq_kindOf] at hk'
    refine ⟨by rw [lexMsg_step hj hc hk, hm]; rfl, ?_⟩
    rw [Pygcode.lexAux, nextLetter_eval hj hc]
    simp only [hk', hm]
  | @word junk c s v r k m hj hc hk hl _ ih =>
    intro n hn
    obtain ⟨n, rfl⟩ : ∃ k, n = k + 1 := ⟨n - 1, by omega⟩
    have hm := matchValue_iff.2 hl
    have hlen : r.length < n := by
      have := hl.1
      have h2 := congrArg List.length this
      simp at h2 hn
      omega
    obtain ⟨h1, h2⟩ := ih n hlen
    have hk' := hk
    rw [← wordKind_eq_kindOf] at hk'
    refine ⟨by rw [lexMsg_step hj hc hk, hm]; exact h1, ?_⟩
    rw [lexAux_step hj hc hk' hm, h2]

/-- **C111**: the text of the exception raised when a block cannot be read as words, by a rule stated
without reference to the code: it names the first letter that has no value, or quotes what is left
after the last word. -/
theorem C111_lex (t m : List Char) : Msg.text2words t = some m ↔ LexFails t m :=
  ⟨lexMsg_sound _ t m, fun h => (lexMsg_complete h _ (by omega)).1⟩

theorem lexMsg_of_error (n : ℕ) : ∀ t, t.length < n → ∀ e, Pygcode.lexAux n t = .error e →
    ∃ m, Msg.lexAux n t = some m := by
  induction n with
  | zero => intro t h; omega
  | succ n ih =>
    intro t hn e h
    unfold Pygcode.lexAux at h
    unfold Msg.lexAux
    cases hnl : nextLetter t with
    | none =>
      rw [hnl] at h
      simp only at h ⊢
      by_cases hb : t.all isSpace = true
      · rw [if_pos hb] at h; cases h
      · rw [if_neg hb]; exact ⟨_, rfl⟩
    | some p =>
      obtain ⟨l, s⟩ := p
      rw [hnl] at h
      obtain ⟨junk, c, rfl, rfl, hc, hj⟩ := nextLetter_sound hnl
      obtain ⟨k, hk⟩ := kind_some_of_letter hc
      simp only [hk] at h ⊢
      cases hm : matchValue k s with
      | none => exact ⟨_, rfl⟩
      | some q =>
        obtain ⟨v, r⟩ := q
        rw [hm] at h
        simp only at h ⊢
        have hlen : r.length < n := by
          have h2 := congrArg List.length (matchValue_iff.1 hm).1
          simp at h2 hn
          omega
        cases hr : Pygcode.lexAux n r with
        | error e' => exact ih r hlen e' hr
        | ok ws => rw [hr] at h; cases h

/-- **C111**: the exception is raised exactly for the texts the rule gives a message for. -/
theorem C111_lex_raised (t : List Char) :
    Pygcode.text2words t = .error .wordStr ↔ ∃ m, LexFails t m := by
  constructor
  · intro h
    obtain ⟨m, hm⟩ := lexMsg_of_error _ t (by omega) _ h
    exact ⟨m, (C111_lex t m).1 hm⟩
  · rintro ⟨m, hm⟩
    exact (lexMsg_complete hm _ (by omega)).2

/-! ## Grouping words -/

theorem addParam_msg (g : GCode) (w : Word) (hl : w.letter ∈ g.cls.params) (t : List Char) :
    Msg.addParam g w = some t ↔ ∃ a, g.param w.letter = some a ∧ t = Msg.definedTwice a w := by
  unfold Msg.addParam
  rw [if_neg (by simpa using hl)]
  cases h : g.param w.letter with
  | none => simp
  | some a => simp [eq_comm]

theorem addAll_sound (ps : List Word) : ∀ g : GCode, (∀ p ∈ ps, p.letter ∈ g.cls.params) →
    (g.params.map Word.letter).Nodup → ∀ t, Msg.addAll g ps = some t →
    ∃ p b q a, ps = p ++ b :: q ∧ ((g.params ++ p).map Word.letter).Nodup ∧ a ∈ g.params ++ p ∧
      a.letter = b.letter ∧ t = Msg.definedTwice a b := by
  induction ps with
  | nil => intro g _ _ t h; cases h
  | cons w r ih =>
    intro g hl hnd t h
    unfold Msg.addAll at h
    cases hp : g.param w.letter with
    | some a =>
      rw [(addParam_msg g w (hl w (by simp)) _).2 ⟨a, hp, rfl⟩] at h
      cases h
      refine ⟨[], w, r, a, rfl, by simpa using hnd, ?_, ?_, rfl⟩
      · simpa using List.mem_of_find?_eq_some hp
      · simpa using List.find?_some hp
    | none =>
      have hno : Msg.addParam g w = none := by
        cases hx : Msg.addParam g w with
        | none => rfl
        | some t' =>
          obtain ⟨a, ha, -⟩ := (addParam_msg g w (hl w (by simp)) t').1 hx
          rw [hp] at ha; cases ha
      rw [hno] at h
      simp only at h
      have hnin : ∀ x ∈ g.params, x.letter ≠ w.letter := by
        intro x hx
        have := List.find?_eq_none.1 hp x hx
        simpa using this
      obtain ⟨p, b, q, a, hps, h1, h2, h3, h4⟩ := ih { g with params := g.params ++ [w] }
        (fun p hp => hl p (by simp [hp])) (by
          simp only [List.map_append, List.map_cons, List.map_nil]
          rw [List.nodup_append]
          refine ⟨hnd, by simp, ?_⟩
          intro x hx y hy
          obtain ⟨z, hz, rfl⟩ := List.mem_map.1 hx
          simp only [List.mem_singleton] at hy
          subst hy
          exact hnin z hz) t h
      exact ⟨w :: p, b, q, a, by rw [hps]; rfl, by simpa using h1, by simpa using h2, h3, h4⟩

theorem addAll_none_of_ok (ps : List Word) (g : GCode) (hl : ∀ p ∈ ps, p.letter ∈ g.cls.params)
    (h : ((g.params ++ ps).map Word.letter).Nodup) : Msg.addAll g ps = none := by
  cases hx : Msg.addAll g ps with
  | none => rfl
  | some t =>
    obtain ⟨p, b, q, a, rfl, -, h2, h3, -⟩ := addAll_sound ps g hl (by
      rw [List.map_append] at h; exact (List.nodup_append.1 h).1) t hx
    exfalso
    rw [← List.append_assoc, List.map_append, List.nodup_append] at h
    exact h.2.2 a.letter (List.mem_map_of_mem h2) b.letter (by simp) h3

theorem addAll_some_of_dup (ps : List Word) : ∀ g : GCode, (∀ p ∈ ps, p.letter ∈ g.cls.params) →
    (g.params.map Word.letter).Nodup → ¬ ((g.params ++ ps).map Word.letter).Nodup →
    ∃ t, Msg.addAll g ps = some t := by
  induction ps with
  | nil => intro g _ h h'; exact absurd (by simpa using h) h'
  | cons w r ih =>
    intro g hl hnd hd
    unfold Msg.addAll
    cases hx : Msg.addParam g w with
    | some t => exact ⟨t, rfl⟩
    | none =>
      have hp : g.param w.letter = none := by
        cases hp : g.param w.letter with
        | none => rfl
        | some a => rw [(addParam_msg g w (hl w (by simp)) _).2 ⟨a, hp, rfl⟩] at hx; cases hx
      have hnin : ∀ x ∈ g.params, x.letter ≠ w.letter := by
        intro x hx
        have := List.find?_eq_none.1 hp x hx
        simpa using this
      refine ih { g with params := g.params ++ [w] } (fun p hp => hl p (by simp [hp])) ?_ (by simpa using hd)
      simp only [List.map_append, List.map_cons, List.map_nil]
      rw [List.nodup_append]
      refine ⟨hnd, by simp, ?_⟩
      intro x hx y hy
      obtain ⟨z, hz, rfl⟩ := List.mem_map.1 hx
      simp only [List.mem_singleton] at hy
      subst hy
      exact hnin z hz

/-- The message of the first description that cannot be made. -/
def msgAll (ds : List (Cls × Word × List Word)) : Option (List Char) :=
  ds.findSome? (fun d => Msg.addAll ⟨d.1, d.2.1, [], false⟩ d.2.2)

theorem msg_build_eq (infos : List Info) (l : List Info) : ∀ i,
    Msg.words2gcodes.build infos i l = msgAll (descr infos i l) := by
  induction l with
  | nil => intro i; rfl
  | cons p r ih =>
    intro i
    unfold Msg.words2gcodes.build descr
    cases hc : p.cls with
    | none => simp only; exact ih _
    | some c =>
      simp only [msgAll, List.findSome?_cons]
      cases hm : Msg.addAll ⟨c, p.word, [], false⟩ (paramMap infos (some i)) with
      | some t => rfl
      | none => simp only; exact ih _

theorem msg_words2gcodes_eq (ws : List Word) (role : ℕ → Role) (hr : IsGrouping ws role) :
    Msg.words2gcodes ws = msgAll (gcodesOf ws role) := by
  have hu := grouping_unique ws _ _ hr (roleOf_grouping ws)
  rw [gcodesOf_congr ws _ _ hu]
  unfold Msg.words2gcodes
  rw [msg_build_eq, descr_eq]

theorem msgAll_sound (ds : List (Cls × Word × List Word))
    (hl : ∀ d ∈ ds, ∀ p ∈ d.2.2, p.letter ∈ d.1.params) (t : List Char) (h : msgAll ds = some t) :
    ∃ before d after, ds = before ++ d :: after ∧ (∀ x ∈ before, (x.2.2.map Word.letter).Nodup) ∧
      ∃ p b q a, d.2.2 = p ++ b :: q ∧ (p.map Word.letter).Nodup ∧ a ∈ p ∧ a.letter = b.letter ∧
        t = Msg.definedTwice a b := by
  induction ds with
  | nil => cases h
  | cons d ds ih =>
    unfold msgAll at h
    rw [List.findSome?_cons] at h
    cases hm : Msg.addAll ⟨d.1, d.2.1, [], false⟩ d.2.2 with
    | some t' =>
      rw [hm] at h
      cases h
      obtain ⟨p, b, q, a, h1, h2, h3, h4, h5⟩ := addAll_sound d.2.2 ⟨d.1, d.2.1, [], false⟩
        (hl d (by simp)) (by simp) _ hm
      exact ⟨[], d, ds, rfl, by simp, p, b, q, a, h1, by simpa using h2, by simpa using h3, h4, h5⟩
    | none =>
      rw [hm] at h
      simp only at h
      obtain ⟨before, d', after, h1, h2, h3⟩ := ih (fun d hd => hl d (by simp [hd])) h
      refine ⟨d :: before, d', after, by rw [h1]; rfl, ?_, h3⟩
      intro x hx
      rcases List.mem_cons.1 hx with rfl | hx
      · by_contra hnd
        obtain ⟨t', ht'⟩ := addAll_some_of_dup x.2.2 ⟨x.1, x.2.1, [], false⟩ (hl x (by simp)) (by simp)
          (by simpa using hnd)
        rw [hm] at ht'; cases ht'
      · exact h2 x hx

/-- The rule determines the two words. -/
theorem firstTwice_unique {ws : List Word} {role : ℕ → Role} {a b a' b' : Word}
    (h : FirstTwice ws role a b) (h' : FirstTwice ws role a' b') : a = a' ∧ b = b' := by
  obtain ⟨x, d, y, h1, h2, p, q, h3, h4, h5, h6⟩ := h
  obtain ⟨x', d', y', h1', h2', p', q', h3', h4', h5', h6'⟩ := h'
  have nodup_of : ∀ {p q : List Word} {a b : Word}, a ∈ p → a.letter = b.letter →
      ¬ ((p ++ b :: q).map Word.letter).Nodup := by
    intro p q a b ha hab hn
    rw [List.map_append, List.nodup_append] at hn
    exact hn.2.2 a.letter (List.mem_map_of_mem ha) b.letter (by simp) hab
  have hd : x = x' ∧ d = d' := by
    rw [h1] at h1'
    rcases List.append_eq_append_iff.1 h1' with ⟨z, hz, hz'⟩ | ⟨z, hz, hz'⟩
    · cases z with
      | nil => simp at hz hz'; exact ⟨hz.symm, hz'.1⟩
      | cons e z =>
        simp only [List.cons_append, List.cons.injEq] at hz'
        exfalso
        have := h2' d (by rw [hz, hz'.1]; simp)
        rw [h3] at this
        exact nodup_of h5 h6 this
    · cases z with
      | nil => simp at hz hz'; exact ⟨hz, hz'.1.symm⟩
      | cons e z =>
        simp only [List.cons_append, List.cons.injEq] at hz'
        exfalso
        have := h2 d' (by rw [hz, hz'.1]; simp)
        rw [h3'] at this
        exact nodup_of h5' h6' this
  obtain ⟨rfl, rfl⟩ := hd
  rw [h3] at h3'
  have hp : p = p' ∧ b = b' := by
    rcases List.append_eq_append_iff.1 h3' with ⟨z, hz, hz'⟩ | ⟨z, hz, hz'⟩
    · cases z with
      | nil => simp at hz hz'; exact ⟨hz.symm, hz'.1⟩
      | cons e z =>
        simp only [List.cons_append, List.cons.injEq] at hz'
        rw [hz, ← hz'.1] at h4'
        exact absurd h4' (nodup_of h5 h6)
    · cases z with
      | nil => simp at hz hz'; exact ⟨hz, hz'.1.symm⟩
      | cons e z =>
        simp only [List.cons_append, List.cons.injEq] at hz'
        rw [hz, ← hz'.1] at h4
        exact absurd h4 (nodup_of h5' h6')
  obtain ⟨rfl, rfl⟩ := hp
  refine ⟨?_, rfl⟩
  exact List.inj_on_of_nodup_map h4 h5 h5' (h6.trans h6'.symm)

/-- **C111**: the text of the exception raised when words cannot be grouped into gcodes: it names the
two words with one letter given to the same gcode.  No other text occurs. -/
theorem C111_twice (ws : List Word) (role : ℕ → Role) (hr : IsGrouping ws role) (m : List Char) :
    Msg.words2gcodes ws = some m ↔ ∃ a b, FirstTwice ws role a b ∧
      m = chars! "parameter defined twice: " ++ a.str ++ chars! " -> " ++ b.str := by
  have key : ∀ m, Msg.words2gcodes ws = some m → ∃ a b, FirstTwice ws role a b ∧
      m = chars! "parameter defined twice: " ++ a.str ++ chars! " -> " ++ b.str := by
    intro m h
    rw [msg_words2gcodes_eq ws role hr] at h
    obtain ⟨x, d, y, h1, h2, p, b, q, a, h3, h4, h5, h6, h7⟩ := msgAll_sound _
      (fun d hd => params_allowed ws role hr hd) m h
    exact ⟨a, b, ⟨x, d, y, h1, h2, p, q, h3, h4, h5, h6⟩, h7⟩
  refine ⟨key m, ?_⟩
  rintro ⟨a, b, hab, rfl⟩
  have hsome : ∃ m', Msg.words2gcodes ws = some m' := by
    rw [msg_words2gcodes_eq ws role hr]
    obtain ⟨x, d, y, h1, h2, p, q, h3, h4, h5, h6⟩ := hab
    obtain ⟨t, ht⟩ := addAll_some_of_dup d.2.2 ⟨d.1, d.2.1, [], false⟩
      (params_allowed ws role hr (by rw [h1]; simp)) (by simp) (by
        rw [h3]
        intro hn
        simp only [List.nil_append] at hn
        rw [List.map_append, List.nodup_append] at hn
        exact hn.2.2 a.letter (List.mem_map_of_mem h5) b.letter (by simp) h6)
    cases hx : msgAll (gcodesOf ws role) with
    | some t' => exact ⟨t', rfl⟩
    | none =>
      unfold msgAll at hx
      rw [List.findSome?_eq_none_iff] at hx
      rw [hx d (by rw [h1]; simp)] at ht
      cases ht
  obtain ⟨m', hm'⟩ := hsome
  obtain ⟨a', b', h', rfl⟩ := key m' hm'
  obtain ⟨rfl, rfl⟩ := firstTwice_unique hab h'
  exact hm'

/-- **C111**: grouping raises exactly when the rule names two words. -/
theorem C111_twice_raised (ws : List Word) (role : ℕ → Role) (hr : IsGrouping ws role) :
    Pygcode.words2gcodes ws = .error .param ↔ ∃ a b, FirstTwice ws role a b := by
  constructor
  · intro h
    have hu := grouping_unique ws _ _ hr (roleOf_grouping ws)
    rw [words2gcodes_eq, ← gcodesOf_congr ws _ _ hu] at h
    cases hm : makeAll (gcodesOf ws role) with
    | ok gs => rw [hm] at h; cases h
    | error e =>
      obtain ⟨-, d, hd, hn⟩ := makeAll_err hm
      have hal := params_allowed ws role hr hd
      obtain ⟨t, ht⟩ := addAll_some_of_dup d.2.2 ⟨d.1, d.2.1, [], false⟩ hal (by simp)
        (by simpa using fun h => hn ⟨hal, h⟩)
      cases hx : msgAll (gcodesOf ws role) with
      | some t' =>
        obtain ⟨x, d, y, h1, h2, p, b, q, a, h3, h4, h5, h6, -⟩ := msgAll_sound _
          (fun d hd => params_allowed ws role hr hd) t' hx
        exact ⟨a, b, x, d, y, h1, h2, p, q, h3, h4, h5, h6⟩
      | none =>
        unfold msgAll at hx
        rw [List.findSome?_eq_none_iff] at hx
        rw [hx d hd] at ht
        cases ht
  · rintro ⟨a, b, x, d, y, h1, h2, p, q, h3, h4, h5, h6⟩
    have hu := grouping_unique ws _ _ hr (roleOf_grouping ws)
    rw [words2gcodes_eq, ← gcodesOf_congr ws _ _ hu]
    cases hm : makeAll (gcodesOf ws role) with
    | error e => rw [(makeAll_err hm).1]
    | ok gs =>
      exfalso
      have hn := ((makeAll_ok hm).2 d (by rw [h1]; simp)).2
      rw [h3, List.map_append, List.nodup_append] at hn
      exact hn.2.2 a.letter (List.mem_map_of_mem h5) b.letter (by simp) h6

/-! ## Gcodes that cannot be together -/

theorem joinWith_eq_intercalate (sep : List Char) (l : List (List Char)) :
    joinWith sep l = List.intercalate sep l := by
  induction l with
  | nil => rfl
  | cons a r ih =>
    cases r with
    | nil => simp [joinWith]
    | cons b r =>
      rw [joinWith, ih]
      simp [List.intercalate, List.intersperse]

theorem clash_snoc (pre : List GCode) (g : GCode) :
    Conflict (pre ++ [g]) ↔ Conflict pre ∨ ∃ a ∈ pre, Clash a g := by
  constructor
  · rintro ⟨i, j, a, b, hij, ha, hb, h⟩
    have hj : j < (pre ++ [g]).length := (List.getElem?_eq_some_iff.1 hb).1
    simp only [List.length_append, List.length_singleton] at hj
    rw [List.getElem?_append_left (by omega)] at ha
    by_cases hlt : j < pre.length
    · rw [List.getElem?_append_left hlt] at hb
      exact .inl ⟨i, j, a, b, hij, ha, hb, h⟩
    · have : j = pre.length := by omega
      subst this
      simp at hb
      subst hb
      exact .inr ⟨a, List.mem_of_getElem? ha, h⟩
  · rintro (⟨i, j, a, b, hij, ha, hb, h⟩ | ⟨a, ha, h⟩)
    · have hj : j < pre.length := (List.getElem?_eq_some_iff.1 hb).1
      exact ⟨i, j, a, b, hij, by rw [List.getElem?_append_left (by omega)]; exact ha,
        by rw [List.getElem?_append_left hj]; exact hb, h⟩
    · obtain ⟨i, hi, rfl⟩ := List.getElem_of_mem ha
      exact ⟨i, pre.length, pre[i], g, hi, by rw [List.getElem?_append_left hi]; simp [hi], by simp, h⟩

/-- The state of the loop after the gcodes `pre`. -/
theorem assertMsg_go (all : List GCode) (r : List GCode) : ∀ (pre : List GCode) (ws : List Word) (grps : List ℕ),
    (∀ w, w ∈ ws ↔ ∃ a ∈ pre, a.word = w) → (∀ k, k ∈ grps ↔ ∃ a ∈ pre, a.cls.group = some k) →
    ¬ Conflict pre → ∀ m, Msg.assertLoop all ws grps r = some m ↔
      ∃ p g q, r = p ++ g :: q ∧ ¬ Conflict (pre ++ p) ∧ (∃ a ∈ pre ++ p, Clash a g) ∧
        m = Msg.sameBlock all g := by
  classical
  induction r with
  | nil =>
    intro pre ws grps _ _ _ m
    simp [Msg.assertLoop]
  | cons g r ih =>
    intro pre ws grps hws hgrps hpre m
    have hclash : (∃ a ∈ pre, Clash a g) ↔ g.word ∈ ws ∨ ∃ k, g.cls.group = some k ∧ k ∈ grps := by
      rw [hws]
      constructor
      · rintro ⟨a, ha, h | ⟨h, h'⟩⟩
        · exact .inl ⟨a, ha, h⟩
        · obtain ⟨k, hk⟩ := Option.ne_none_iff_exists'.1 h'
          exact .inr ⟨k, h ▸ hk, (hgrps k).2 ⟨a, ha, hk⟩⟩
      · rintro (⟨a, ha, h⟩ | ⟨k, hk, hm⟩)
        · exact ⟨a, ha, .inl h⟩
        · obtain ⟨a, ha, h⟩ := (hgrps k).1 hm
          exact ⟨a, ha, .inr ⟨by rw [h, hk], by rw [h]; simp⟩⟩
    have hstep : Msg.assertLoop all ws grps (g :: r) =
        if (∃ a ∈ pre, Clash a g) then some (Msg.sameBlock all g)
        else Msg.assertLoop all (g.word :: ws) (g.cls.group.toList ++ grps) r := by
      rw [Msg.assertLoop]
      by_cases hw : g.word ∈ ws
      · rw [if_pos (by simpa using hw), if_pos (hclash.2 (.inl hw))]
      · rw [if_neg (by simpa using hw)]
        cases hg : g.cls.group with
        | none =>
          rw [if_neg (by rw [hclash]; simp [hw, hg])]
          rfl
        | some k =>
          simp only
          by_cases hk : k ∈ grps
          · rw [if_pos (by simpa using hk), if_pos (hclash.2 (.inr ⟨k, hg, hk⟩))]
          · rw [if_neg (by simpa using hk), if_neg (by rw [hclash]; simp [hw, hg, hk])]
            rfl
    rw [hstep]
    by_cases hc : ∃ a ∈ pre, Clash a g
    · rw [if_pos hc]
      constructor
      · intro h
        cases h
        exact ⟨[], g, r, rfl, by simpa using hpre, by simpa using hc, rfl⟩
      · rintro ⟨p, g', q, h1, h2, h3, rfl⟩
        cases p with
        | nil => simp only [List.nil_append, List.cons.injEq] at h1; rw [h1.1]
        | cons x p =>
          simp only [List.cons_append, List.cons.injEq] at h1
          exfalso
          apply h2
          obtain ⟨a, ha, hcl⟩ := hc
          obtain ⟨i, hi, rfl⟩ := List.getElem_of_mem ha
          refine ⟨i, pre.length, pre[i], g, hi, ?_, ?_, hcl⟩
          · rw [List.getElem?_append_left hi]; simp [hi]
          · rw [← h1.1]; simp
    · rw [if_neg hc, ih (pre ++ [g]) _ _ ?_ ?_ ?_ m]
      · constructor
        · rintro ⟨p, g', q, h1, h2, h3, h4⟩
          exact ⟨g :: p, g', q, by rw [h1]; rfl, by simpa using h2, by simpa using h3, h4⟩
        · rintro ⟨p, g', q, h1, h2, h3, h4⟩
          cases p with
          | nil =>
            simp only [List.nil_append, List.cons.injEq] at h1
            rw [List.append_nil] at h3
            exact absurd (h1.1 ▸ h3) hc
          | cons x p =>
            simp only [List.cons_append, List.cons.injEq] at h1
            obtain ⟨rfl, rfl⟩ := h1
            exact ⟨p, g', q, rfl, by simpa using h2, by simpa using h3, h4⟩
      · intro w
        rw [List.mem_cons, hws]
        constructor
        · rintro (rfl | ⟨a, ha, h⟩)
          · exact ⟨g, by simp, rfl⟩
          · exact ⟨a, by simp [ha], h⟩
        · rintro ⟨a, ha, h⟩
          rcases List.mem_append.1 ha with ha | ha
          · exact .inr ⟨a, ha, h⟩
          · rw [List.mem_singleton.1 ha] at h; exact .inl h.symm
      · intro k
        rw [List.mem_append, hgrps, Option.mem_toList]
        constructor
        · rintro (h | ⟨a, ha, h⟩)
          · exact ⟨g, by simp, h⟩
          · exact ⟨a, by simp [ha], h⟩
        · rintro ⟨a, ha, h⟩
          rcases List.mem_append.1 ha with ha | ha
          · exact .inr ⟨a, ha, h⟩
          · rw [List.mem_singleton.1 ha] at h; exact .inl h
      · rw [clash_snoc]; rintro (h | h)
        · exact hpre h
        · exact hc h

/-- **C111**: the text of the exception raised for gcodes that cannot be in one block: at the first
gcode `g` that clashes with an earlier one, it lists the gcodes of the block that have the modal group
of `g`, in their order. -/
theorem C111_conflict (gs : List GCode) (m : List Char) :
    Msg.assertLoop gs [] [] gs = some m ↔
      ∃ p g q, gs = p ++ g :: q ∧ ¬ Conflict p ∧ (∃ a ∈ p, Clash a g) ∧
        m = chars! "[" ++ List.intercalate (chars! ", ")
            ((gs.filter (fun x => decide (x.cls.group = g.cls.group))).map Msg.gcodeRepr) ++
          chars! "] cannot be in the same block" := by
  rw [assertMsg_go gs gs [] [] [] (by simp) (by simp) (by rintro ⟨i, j, a, b, -, h, -⟩; simp at h) m]
  have hm : ∀ g, Msg.sameBlock gs g = chars! "[" ++ List.intercalate (chars! ", ")
            ((gs.filter (fun x => decide (x.cls.group = g.cls.group))).map Msg.gcodeRepr) ++
          chars! "] cannot be in the same block" := by
    intro g
    unfold Msg.sameBlock Msg.listText
    rw [joinWith_eq_intercalate]
    have : (fun x : GCode => x.cls.group == g.cls.group) = (fun x => decide (x.cls.group = g.cls.group)) := by
      funext x; rw [Bool.eq_iff_iff]; simp
    rw [this]
    simp
  simp only [hm, List.nil_append]

/-- **C111**: the exception for gcodes that cannot be in one block is raised exactly when there is such
a message. -/
theorem C111_conflict_raised (gs : List GCode) :
    Block.assertLoop [] [] gs = .error .assertion ↔ ∃ m, Msg.assertLoop gs [] [] gs = some m := by
  have key : ∀ (r : List GCode) (ws : List Word) (grps : List ℕ),
      Block.assertLoop ws grps r = .error .assertion ↔ ∃ m, Msg.assertLoop gs ws grps r = some m := by
    intro r
    induction r with
    | nil => intro ws grps; simp [Block.assertLoop, Msg.assertLoop]
    | cons g r ih =>
      intro ws grps
      unfold Block.assertLoop Msg.assertLoop
      by_cases hw : ws.contains g.word = true
      · rw [if_pos hw, if_pos hw]; simp
      · rw [if_neg hw, if_neg hw]
        cases hg : g.cls.group with
        | none => exact ih _ _
        | some k =>
          simp only
          by_cases hk : grps.contains k = true
          · rw [if_pos hk, if_pos hk]; simp
          · rw [if_neg hk, if_neg hk]; exact ih _ _
  exact key gs [] []

/-- **C111**: when the clash is about a modal group, the message lists exactly the gcodes of that
group, the two that clash among them (for gcodes made from their words). -/
theorem C111_conflict_group (gs p q : List GCode) (g a : GCode) (hn : ∀ x ∈ gs, Named x)
    (h : gs = p ++ g :: q) (ha : a ∈ p) (hc : Clash a g) (k : ℕ) (hk : g.cls.group = some k) :
    let listed := gs.filter (fun x => decide (x.cls.group = g.cls.group))
    a ∈ listed ∧ g ∈ listed ∧ ∀ x ∈ gs, x ∈ listed ↔ x.cls.group = some k := by
  have hag : a.cls.group = g.cls.group := by
    rcases hc with hw | ⟨h1, -⟩
    · have h1 := hn a (by rw [h]; simp [ha])
      have h2 := hn g (by rw [h]; simp)
      unfold Named at h1 h2
      rw [hw, h2] at h1
      rw [Option.some.inj h1]
    · exact h1
  refine ⟨?_, ?_, ?_⟩
  · rw [List.mem_filter]; exact ⟨by rw [h]; simp [ha], by simpa using hag⟩
  · rw [List.mem_filter]; exact ⟨by rw [h]; simp, by simp⟩
  · intro x hx
    rw [List.mem_filter, hk]
    simp [hx]

/-! ## Words a machine cannot use -/

theorem overrideOne_keys (ps : List Word) (w : Word) :
    (overrideOne ps w).map Word.letter =
      if w.letter ∈ ps.map Word.letter then ps.map Word.letter else ps.map Word.letter ++ [w.letter] := by
  unfold overrideOne
  by_cases hc : w.letter ∈ ps.map Word.letter
  · rw [if_pos hc, if_pos (by simpa using hc), List.map_map]
    apply List.map_congr_left
    intro p _
    by_cases hp : p.letter = w.letter <;> simp [hp]
  · rw [if_neg hc, if_neg (by simpa using hc)]
    simp

/-- The letters not taken, after overriding: in order of first occurrence. -/
theorem override_keys (S : List Char) (ps mp : List Word) (hps : ∀ p ∈ ps, p.letter ∈ S) :
    ((override ps mp).map Word.letter).filter (fun l => decide (l ∉ S)) =
      ((mp.map Word.letter).filter (fun l => decide (l ∉ S))).eraseDups := by
  induction mp using List.reverseRecOn with
  | nil =>
    simp only [override, List.foldl_nil, List.map_nil, List.filter_nil, List.eraseDups_nil]
    rw [List.filter_eq_nil_iff]
    intro l hl
    obtain ⟨p, hp, rfl⟩ := List.mem_map.1 hl
    simpa using hps p hp
  | append_singleton mp w ih =>
    have hstep : override ps (mp ++ [w]) = overrideOne (override ps mp) w := by
      unfold override; rw [List.foldl_append]; rfl
    rw [hstep, overrideOne_keys, List.map_append, List.filter_append, List.eraseDups_append, ← ih]
    by_cases hS : w.letter ∈ S
    · have h1 : ([w].map Word.letter).filter (fun l => decide (l ∉ S)) = [] := by simp [hS]
      rw [h1]
      simp only [List.removeAll, List.filter_nil, List.eraseDups_nil, List.append_nil]
      split_ifs with h
      · rfl
      · rw [List.filter_append]; simp [hS]
    · have h1 : ([w].map Word.letter).filter (fun l => decide (l ∉ S)) = [w.letter] := by simp [hS]
      rw [h1]
      have hmem : w.letter ∈ (mp.map Word.letter).filter (fun l => decide (l ∉ S)) ↔
          w.letter ∈ (override ps mp).map Word.letter := by
        rw [← List.mem_eraseDups, ← ih, List.mem_filter]
        simp [hS]
      by_cases hin : w.letter ∈ (override ps mp).map Word.letter
      · rw [if_pos hin]
        have : [w.letter].removeAll ((mp.map Word.letter).filter (fun l => decide (l ∉ S))) = [] := by
          simp only [List.removeAll, List.filter_eq_nil_iff]
          intro x hx
          rw [List.mem_singleton.1 hx]
          simpa using hmem.2 hin
        rw [this]; simp
      · rw [if_neg hin, List.filter_append]
        have : [w.letter].removeAll ((mp.map Word.letter).filter (fun l => decide (l ∉ S))) = [w.letter] := by
          simp only [List.removeAll, List.filter_eq_self]
          intro x hx
          rw [List.mem_singleton.1 hx]
          simpa [hS] using fun h => hin (hmem.1 h)
        rw [this]
        simp [hS, List.eraseDups_cons]

theorem getLast_of_filter (mp : List Word) (l : Char) (w : Word) :
    (mp.filter (fun p => p.letter == l)).getLast? = some w ↔
      w.letter = l ∧ ∃ pre post, mp = pre ++ w :: post ∧ ∀ x ∈ post, x.letter ≠ w.letter := by
  induction mp using List.reverseRecOn with
  | nil => simp
  | append_singleton mp x ih =>
    rw [List.filter_append]
    by_cases hx : x.letter = l
    · have h1 : [x].filter (fun p => p.letter == l) = [x] := by simp [hx]
      rw [h1, List.getLast?_append]
      simp only [List.getLast?_singleton, Option.some_or, Option.some.injEq]
      constructor
      · rintro rfl; exact ⟨hx, mp, [], rfl, by simp⟩
      · rintro ⟨hl, pre, post, h, hp⟩
        rcases List.eq_nil_or_concat post with rfl | ⟨post', y, rfl⟩
        · have := List.append_inj' h rfl
          simp at this; exact this.2
        · have h' : mp ++ [x] = (pre ++ w :: post') ++ [y] := by rw [h]; simp
          have := List.append_inj' h' rfl
          simp only [List.cons.injEq, and_true] at this
          exact absurd (by rw [← this.2, hx, hl]) (hp y (by simp))
    · have h1 : [x].filter (fun p => p.letter == l) = [] := by simp [hx]
      rw [h1, List.append_nil, ih]
      constructor
      · rintro ⟨hl, pre, post, rfl, hp⟩
        refine ⟨hl, pre, post ++ [x], by simp, ?_⟩
        intro y hy
        rcases List.mem_append.1 hy with hy | hy
        · exact hp y hy
        · rw [List.mem_singleton.1 hy, hl]; exact hx
      · rintro ⟨hl, pre, post, h, hp⟩
        refine ⟨hl, ?_⟩
        rcases List.eq_nil_or_concat post with rfl | ⟨post', y, rfl⟩
        · have := List.append_inj' h rfl
          simp at this
          exact absurd (this.2 ▸ hl) hx
        · have h' : mp ++ [x] = (pre ++ w :: post') ++ [y] := by rw [h]; simp
          have := List.append_inj' h' rfl
          exact ⟨pre, post', this.1, fun z hz => hp z (by simp [hz])⟩

theorem override_cannotUse (m : Machine) (g : GCode) (hmo : m.mode.motion = some g) (hg : GOK g)
    (mp : List Word) :
    CannotUse m mp ((override g.params mp).filter (fun p => decide (p.letter ∉ g.cls.params))) := by
  unfold CannotUse
  rw [hmo]
  refine ⟨?_, ?_⟩
  · rw [← override_keys g.cls.params g.params mp hg.2, List.filter_map]; rfl
  · intro w
    rw [List.mem_filter]
    simp only [decide_eq_true_eq]
    rw [and_comm, and_congr_right_iff]
    intro hl
    have hps : g.params.find? (fun p => p.letter == w.letter) = none := by
      rw [List.find?_eq_none]
      intro p hp h
      simp only [beq_iff_eq] at h
      exact hl (h ▸ hg.2 p hp)
    have hf := override_find mp g.params w.letter
    rw [hps, Option.or_none] at hf
    constructor
    · intro hm
      have hfs : (override g.params mp).find? (fun p => p.letter == w.letter) = some w := by
        have hnd := override_letters mp g.params hg.1
        cases hx : (override g.params mp).find? (fun p => p.letter == w.letter) with
        | none => exact absurd (by simp) (List.find?_eq_none.1 hx w hm)
        | some y =>
          have h1 := List.mem_of_find?_eq_some hx
          have h2 := List.find?_some hx
          simp only [beq_iff_eq] at h2
          rw [List.inj_on_of_nodup_map hnd h1 hm h2]
      rw [hfs] at hf
      exact ((getLast_of_filter mp w.letter w).1 hf.symm).2
    · intro h
      rw [(getLast_of_filter mp w.letter w).2 ⟨rfl, h⟩] at hf
      exact List.mem_of_find?_eq_some hf

theorem nodup_eraseDups (l : List Char) : l.eraseDups.Nodup := by
  induction l using List.reverseRecOn with
  | nil => simp
  | append_singleton l x ih =>
    rw [List.eraseDups_append]
    by_cases hx : x ∈ l
    · have : [x].removeAll l = [] := by simp [List.removeAll, hx]
      rw [this]; simpa using ih
    · have : [x].removeAll l = [x] := by simp [List.removeAll, hx]
      rw [this, List.nodup_append]
      refine ⟨ih, by simp [List.eraseDups_cons], ?_⟩
      intro a ha b hb
      rw [List.mem_eraseDups] at ha hb
      rw [List.mem_singleton.1 hb]
      rintro rfl
      exact hx ha

theorem cannotUse_unique {m : Machine} {mp un un' : List Word} (h : CannotUse m mp un)
    (h' : CannotUse m mp un') : un = un' := by
  unfold CannotUse at h h'
  cases hmo : m.mode.motion with
  | none => rw [hmo] at h h'; simp only at h h'; rw [h, h']
  | some g =>
    rw [hmo] at h h'
    simp only at h h'
    have hnd : (un.map Word.letter).Nodup := by rw [h.1]; exact nodup_eraseDups _
    have hlen : un.length = un'.length := by
      have := congrArg List.length (h.1.trans h'.1.symm)
      simpa using this
    apply List.ext_getElem hlen
    intro i hi hi'
    have hl : (un[i]).letter = (un'[i]).letter := by
      have h1 : (un.map Word.letter)[i]? = (un'.map Word.letter)[i]? := by rw [h.1, h'.1]
      simpa [hi, hi'] using h1
    have hm : un'[i] ∈ un := (h.2 _).2 ((h'.2 _).1 (List.getElem_mem hi'))
    exact List.inj_on_of_nodup_map hnd (List.getElem_mem hi) hm hl

/-- No gcode takes a parameter `G` or `M`. -/
theorem params_no_code (c : Cls) : 'G' ∉ c.params ∧ 'M' ∉ c.params := by
  have := Cls.forall_of_all (p := fun c => !c.params.contains 'G' && !c.params.contains 'M')
    (by decide +kernel) c
  simpa using this

/-- **C111**: the text of the exception raised for left-over words of a block that a machine cannot
use, on a machine whose motion mode (if any) is a gcode read from text.  It lists the words by
`CannotUse` and shows the mode; it says "unsupported gcode(s)" if a left-over word has the letter
`G` or `M`, and speaks of modal parameters otherwise. -/
theorem C111_modal (m : Machine) (hm : ∀ g, m.mode.motion = some g → GOK g ∧ Named g) (mp : List Word)
    (hmp : ∀ w ∈ mp, wordClass w = none) (t : List Char) :
    Msg.modalGcode m mp = some t ↔ m.ignoreInvalid = false ∧ ∃ un, un ≠ [] ∧ CannotUse m mp un ∧
      t = if ∃ w ∈ mp, w.letter = 'G' ∨ w.letter = 'M' then
          chars! "unsupported gcode(s): '" ++ List.intercalate (chars! " ") (un.map Word.str) ++
            chars! "' (machine mode: <Mode: " ++ m.mode.str ++ chars! ">)"
        else
          chars! "modal parameters '" ++ List.intercalate (chars! " ") (un.map Word.str) ++
            chars! "' cannot be assigned when in mode: <Mode: " ++ m.mode.str ++ chars! ">" := by
  have htext : ∀ un, CannotUse m mp un → Msg.unassigned m.mode un =
      if ∃ w ∈ mp, w.letter = 'G' ∨ w.letter = 'M' then
          chars! "unsupported gcode(s): '" ++ List.intercalate (chars! " ") (un.map Word.str) ++
            chars! "' (machine mode: <Mode: " ++ m.mode.str ++ chars! ">)"
        else
          chars! "modal parameters '" ++ List.intercalate (chars! " ") (un.map Word.str) ++
            chars! "' cannot be assigned when in mode: <Mode: " ++ m.mode.str ++ chars! ">" := by
    intro un hun
    have hiff : un.any (fun w => ['G', 'M'].contains w.letter) = true ↔
        ∃ w ∈ mp, w.letter = 'G' ∨ w.letter = 'M' := by
      rw [List.any_eq_true]
      unfold CannotUse at hun
      cases hmo : m.mode.motion with
      | none => rw [hmo] at hun; simp only at hun; rw [hun]; simp
      | some g =>
        rw [hmo] at hun
        simp only at hun
        constructor
        · rintro ⟨w, hw, hl⟩
          obtain ⟨-, pre, post, rfl, -⟩ := (hun.2 w).1 hw
          exact ⟨w, by simp, by simpa using hl⟩
        · rintro ⟨w, hw, hl⟩
          have hnp : w.letter ∉ g.cls.params := by
            rcases hl with h | h <;> rw [h]
            · exact (params_no_code g.cls).1
            · exact (params_no_code g.cls).2
          have : w.letter ∈ un.map Word.letter := by
            rw [hun.1, List.mem_eraseDups, List.mem_filter]
            exact ⟨List.mem_map_of_mem hw, by simpa using hnp⟩
          obtain ⟨x, hx, hxl⟩ := List.mem_map.1 this
          exact ⟨x, hx, by rw [hxl]; simpa using hl⟩
    unfold Msg.unassigned Msg.modeRepr
    rw [joinWith_eq_intercalate]
    by_cases hc : ∃ w ∈ mp, w.letter = 'G' ∨ w.letter = 'M'
    · rw [if_pos (hiff.2 hc), if_pos hc]; simp
    · rw [if_neg (fun h => hc (hiff.1 h)), if_neg hc]; simp
  have hkey : Msg.modalGcode m mp = some t ↔ m.ignoreInvalid = false ∧ ∃ un, un ≠ [] ∧ CannotUse m mp un ∧
      t = Msg.unassigned m.mode un := by
    unfold Msg.modalGcode
    by_cases hne : mp = []
    · rw [if_pos hne]
      subst hne
      simp only [reduceCtorEq, false_iff]
      rintro ⟨-, un, hun, h, -⟩
      unfold CannotUse at h
      cases hmo : m.mode.motion with
      | none => rw [hmo] at h; exact hun h
      | some g =>
        rw [hmo] at h
        apply hun
        have := h.1
        simp at this
        exact this
    · rw [if_neg hne]
      cases hmo : m.mode.motion with
      | none =>
        simp only
        have hcu : CannotUse m mp mp := by unfold CannotUse; rw [hmo]
        cases hi : m.ignoreInvalid with
        | true => simp
        | false =>
          simp only [Bool.false_eq_true, if_false, Option.some.injEq, true_and]
          constructor
          · rintro rfl; exact ⟨mp, hne, hcu, rfl⟩
          · rintro ⟨un, -, h, rfl⟩; rw [cannotUse_unique h hcu]
      | some g =>
        obtain ⟨hg, hn⟩ := hm g hmo
        have hcu := override_cannotUse m g hmo hg mp
        have hw := words2gcodes_single g.word g.cls hn (override g.params mp) (by
          intro p hp
          rcases override_mem mp g.params p hp with h | h
          · exact .inr (hg.2 p h)
          · exact .inl (hmp p h))
        rw [if_pos ((override_letters mp g.params hg.1).sublist
          (List.Sublist.map _ List.filter_sublist))] at hw
        simp only [hw]
        by_cases hc : (override g.params mp).filter (fun p => decide (p.letter ∉ g.cls.params)) ≠ [] ∧
            m.ignoreInvalid = false
        · rw [if_pos hc]
          simp only [Option.some.injEq]
          constructor
          · rintro rfl; exact ⟨hc.2, _, hc.1, hcu, rfl⟩
          · rintro ⟨-, un, -, h, rfl⟩; rw [cannotUse_unique h hcu]
        · rw [if_neg hc]
          simp only [reduceCtorEq, false_iff]
          rintro ⟨hi, un, hun, h, -⟩
          rw [cannotUse_unique h hcu] at hun
          exact hc ⟨hun, hi⟩
  rw [hkey]
  constructor
  · rintro ⟨hi, un, h1, h2, rfl⟩; exact ⟨hi, un, h1, h2, htext un h2⟩
  · rintro ⟨hi, un, h1, h2, rfl⟩; exact ⟨hi, un, h1, h2, (htext un h2).symm⟩

/-- **C111**: a machine raises on left-over words exactly when there is such a message. -/
theorem C111_modal_raised (m : Machine) (hm : ∀ g, m.mode.motion = some g → GOK g ∧ Named g)
    (mp : List Word) (hmp : ∀ w ∈ mp, wordClass w = none) :
    m.modalGcode mp = .error .invalidState ↔ ∃ t, Msg.modalGcode m mp = some t := by
  unfold Msg.modalGcode Machine.modalGcode
  by_cases hne : mp = []
  · rw [if_pos hne, if_pos hne]; simp
  · rw [if_neg hne, if_neg hne]
    cases hmo : m.mode.motion with
    | none => simp only; cases m.ignoreInvalid <;> simp
    | some g =>
      obtain ⟨hg, hn⟩ := hm g hmo
      have hw := words2gcodes_single g.word g.cls hn (override g.params mp) (by
        intro p hp
        rcases override_mem mp g.params p hp with h | h
        · exact .inr (hg.2 p h)
        · exact .inl (hmp p h))
      rw [if_pos ((override_letters mp g.params hg.1).sublist
        (List.Sublist.map _ List.filter_sublist))] at hw
      simp only [hw]
      by_cases hc : (override g.params mp).filter (fun p => decide (p.letter ∉ g.cls.params)) ≠ [] ∧
          m.ignoreInvalid = false
      · rw [if_pos hc, if_pos hc]; simp
      · rw [if_neg hc, if_neg hc]; simp

/-! ## Blocks -/

theorem lex_error_msg {t : List Char} {e : Err} (h : Pygcode.text2words t = .error e) :
    ∃ m, Msg.text2words t = some m := lexMsg_of_error _ t (by omega) e h

theorem group_error_msg {ws : List Word} {e : Err} (h : Pygcode.words2gcodes ws = .error e) :
    ∃ m, Msg.words2gcodes ws = some m := by
  have hr := roleOf_grouping ws
  have he : e = .param := ((C18_error_iff ws e _ hr).1 h).1
  subst he
  obtain ⟨a, b, hab⟩ := (C111_twice_raised ws _ hr).1 h
  exact ⟨_, (C111_twice ws _ hr _).2 ⟨a, b, hab, rfl⟩⟩

/-- **C111**: every refused block has a message and no accepted block has one; the message is that of
reading the cleaned text as words, or else that of grouping the words, or else that of the check. -/
theorem C111_block (t : List Char) :
    ((∃ e, Block.ofText t = .error e) ↔ ∃ m, Msg.block t = some m) ∧
    ∀ m, Msg.block t = some m ↔
      LexFails (cleanText t) m ∨
      (∃ ws, Pygcode.text2words (cleanText t) = .ok ws ∧ Msg.words2gcodes ws = some m) ∨
      ∃ ws gs un, Pygcode.text2words (cleanText t) = .ok ws ∧ Pygcode.words2gcodes ws = .ok (gs, un) ∧
        Msg.assertLoop gs [] [] gs = some m := by
  have hlex : ∀ ws m, Pygcode.text2words (cleanText t) = .ok ws → ¬ LexFails (cleanText t) m := by
    intro ws m h h'
    rw [(C111_lex_raised _).2 ⟨m, h'⟩] at h; cases h
  unfold Block.ofText Msg.block
  cases hw : Pygcode.text2words (cleanText t) with
  | error e =>
    obtain ⟨m, hm⟩ := lex_error_msg hw
    simp only [reduceCtorEq, false_and, exists_false, or_false]
    exact ⟨⟨fun _ => ⟨m, hm⟩, fun _ => ⟨e, rfl⟩⟩, fun m => C111_lex _ m⟩
  | ok ws =>
    have hno := fun m => hlex ws m hw
    simp only [Except.ok.injEq, exists_eq_left', hno, false_or]
    cases hg : Pygcode.words2gcodes ws with
    | error e =>
      obtain ⟨m, hm⟩ := group_error_msg hg
      refine ⟨⟨fun _ => ⟨m, hm⟩, fun _ => ⟨e, rfl⟩⟩, fun m => ?_⟩
      constructor
      · exact .inl
      · rintro (h | ⟨_, _, _, rfl, h, -⟩)
        · exact h
        · rw [hg] at h; cases h
    | ok r =>
      obtain ⟨gs, un⟩ := r
      simp only [if_true]
      have hnm : Msg.words2gcodes ws = none := by
        cases hx : Msg.words2gcodes ws with
        | none => rfl
        | some m =>
          obtain ⟨a, b, hab, -⟩ := (C111_twice ws _ (roleOf_grouping ws) m).1 hx
          rw [(C111_twice_raised ws _ (roleOf_grouping ws)).2 ⟨a, b, hab⟩] at hg
          cases hg
      refine ⟨?_, fun m => ?_⟩
      · have hc := C111_conflict_raised gs
        rcases (assertLoop_spec gs [] []).1 with h | h
        · rw [h] at hc ⊢
          simp only [reduceCtorEq, false_iff] at hc
          simpa using hc
        · rw [h] at hc ⊢
          simp only [true_iff] at hc
          simpa using hc
      · constructor
        · intro h; exact .inr ⟨ws, gs, un, rfl, hg, h⟩
        · rintro (h | ⟨_, _, _, rfl, h, hm⟩)
          · rw [hnm] at h; cases h
          · rw [hg] at h; cases h; exact hm

/-! ## Where the messages mislead -/

/-- **C111, disagreement**: the message about gcodes that cannot be in one block can name gcodes that
have no part in the clash: the group of a gcode outside the modal groups is `None`, and all others
without a group are listed with it.  In `G4 P1 N5 G4 P2` the line number is named. -/
theorem C111_conflict_refuted : ∃ (t : List Char) (b : Block) (m : List Char) (x : GCode),
    Block.ofText t false = .ok b ∧ Msg.block t = some m ∧ b.gcodes.count x = 1 ∧
      Msg.gcodeRepr x <:+: m ∧ ∀ y ∈ b.gcodes, y ≠ x → ¬ Clash x y := by
  refine ⟨chars! "G4 P1 N5 G4 P2",
    ⟨[⟨'G', .num 4⟩, ⟨'P', .num 1⟩, ⟨'N', .num 5⟩, ⟨'G', .num 4⟩, ⟨'P', .num 2⟩],
     [⟨.dwell, ⟨'G', .num 4⟩, [⟨'P', .num 1⟩], false⟩, ⟨.lineNumber, ⟨'N', .num 5⟩, [], false⟩,
      ⟨.dwell, ⟨'G', .num 4⟩, [⟨'P', .num 2⟩], false⟩], []⟩,
    chars! "[<GCodeDwell: G04{P1}>, <GCodeLineNumber: N5>, <GCodeDwell: G04{P2}>] cannot be in the same block",
    ⟨.lineNumber, ⟨'N', .num 5⟩, [], false⟩, by decide +kernel, by decide +kernel, by decide +kernel,
    by decide +kernel, ?_⟩
  unfold Clash
  decide +kernel

/-- **C111, disagreement**: the message about left-over words can leave out words that the machine
cannot use: of two with one letter only the last is listed.  A new machine given `G70 G71` names
`G71` alone. -/
theorem C111_modal_refuted : ∃ (m : Machine) (g : GCode) (mp : List Word) (t : List Char) (w : Word),
    m.mode.motion = some g ∧ Msg.modalGcode m mp = some t ∧ w ∈ mp ∧ wordClass w = none ∧
      w.letter ∉ g.cls.params ∧ ¬ w.str <:+: t := by
  refine ⟨Machine.new, ⟨.rapidMove, ⟨'G', .num 0⟩, [], false⟩, [⟨'G', .num 70⟩, ⟨'G', .num 71⟩],
    chars! "unsupported gcode(s): 'G71' (machine mode: <Mode: G00 G17 G90 G91.1 G94 G21 G40 G49 G54 G61 G97 M05 M09 F0 S0 T0>)",
    ⟨'G', .num 70⟩, ?_⟩
  decide +kernel

/-! ## Non-trivial instances -/

/-- Messages of refused blocks, one of each kind (`C111_block`, `C111_lex`, `C111_twice`,
`C111_conflict`). -/
example :
    Msg.block (chars! "G1 X1 Y") = some (chars! "word 'Y' value invalid") ∧
    Msg.block (chars! "G1 X1 ?") = some (chars! "block code remaining ' ?'") ∧
    Msg.block (chars! "G91 G1 X1 Y2 X3 Y4") = some (chars! "parameter defined twice: X1 -> X3") ∧
    Msg.block (chars! "G0 X1 G90 G1 Y1 F5") = some
      (chars! "[<GCodeRapidMove: G00{X1}>, <GCodeLinearMove: G01{Y1}>] cannot be in the same block") ∧
    Msg.block (chars! "G0 X1 G90 F5") = none := by decide +kernel

/-- `C111_lex`, `C111_lex_raised`: the derivation for `X1 ?`: a word, then the rest. -/
example : LexFails (chars! "X1 ?") (chars! "block code remaining ' ?'") :=
  (C111_lex _ _).1 (by decide +kernel)

example : Pygcode.text2words (chars! "X1 ?") = .error .wordStr :=
  (C111_lex_raised _).2 ⟨chars! "block code remaining ' ?'", (C111_lex _ _).1 (by decide +kernel)⟩

/-- `C111_twice`, `C111_twice_raised`: a grouping exists for any words (`C17_rule`). -/
example : ∃ role a b, IsGrouping [⟨'G', .num 1⟩, ⟨'X', .num 1⟩, ⟨'X', .num 2⟩] role ∧
    FirstTwice [⟨'G', .num 1⟩, ⟨'X', .num 1⟩, ⟨'X', .num 2⟩] role a b ∧
    chars! "parameter defined twice: X1 -> X2" =
      chars! "parameter defined twice: " ++ a.str ++ chars! " -> " ++ b.str := by
  obtain ⟨role, hr, -⟩ := C17_rule [⟨'G', .num 1⟩, ⟨'X', .num 1⟩, ⟨'X', .num 2⟩]
  obtain ⟨a, b, h⟩ := (C111_twice _ role hr (chars! "parameter defined twice: X1 -> X2")).1 (by decide +kernel)
  exact ⟨role, a, b, hr, h⟩

/-- `C111_conflict_group`, `C111_conflict_raised`: `G0` and `G1`. -/
example : Block.assertLoop [] [] [⟨.rapidMove, ⟨'G', .num 0⟩, [], false⟩,
      ⟨.linearMove, ⟨'G', .num 1⟩, [], false⟩] = .error .assertion ∧
    Named ⟨.rapidMove, ⟨'G', .num 0⟩, [], false⟩ ∧ Named ⟨.linearMove, ⟨'G', .num 1⟩, [], false⟩ ∧
    Clash ⟨.rapidMove, ⟨'G', .num 0⟩, [], false⟩ ⟨.linearMove, ⟨'G', .num 1⟩, [], false⟩ ∧
    Cls.linearMove.group = some 1 := by
  unfold Named Clash
  decide +kernel

/-- `C111_modal`, `C111_modal_raised`: the words `P1 M10` quoted in the description of the unsupported
test files, and two words for one letter, on a new machine; it meets the hypotheses. -/
example :
    Msg.modalGcode Machine.new [⟨'P', .num 1⟩, ⟨'M', .num 10⟩] = some (chars! "unsupported gcode(s): 'P1 M10' (machine mode: <Mode: G00 G17 G90 G91.1 G94 G21 G40 G49 G54 G61 G97 M05 M09 F0 S0 T0>)") ∧
    Msg.modalGcode Machine.new [⟨'P', .num 1⟩, ⟨'R', .num 3⟩, ⟨'X', .num 1⟩, ⟨'P', .num 2⟩] = some (chars! "modal parameters 'P2 R3' cannot be assigned when in mode: <Mode: G00 G17 G90 G91.1 G94 G21 G40 G49 G54 G61 G97 M05 M09 F0 S0 T0>") ∧
    (Machine.new.mode.motion.all fun g => decide (wordClass g.word = some g.cls ∧
      (g.params.map Word.letter).Nodup ∧ ∀ p ∈ g.params, p.letter ∈ g.cls.params)) = true := by
  decide +kernel

end Pygcode.Props
