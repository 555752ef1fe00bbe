import Verif.Lemmas.Alike
import Verif.Lemmas.NormText
import Verif.Props.CropPreamble

/-!
# The output of `pygcode-norm` does what its input does (C66)
-/

namespace Pygcode
open Props Machine Spec

/-! ## Specification -/

/-- What is shown of a line can be printed so that it reads back: words that print exactly, no
left-over words that would be lost (`--singles`) or taken by a gcode, no conflict between gcodes on
one line, and no semicolon comment in front of a macro. -/
structure Tidy (o : NormOpts) (l : Line) (gs : List GCode) (mp : List Word) : Prop where
  plain : ∀ w ∈ gs.flatMap (fun g => g.word :: g.params) ++ mp, PlainWord w
  single : o.singles = true → 1 < gs.length → mp = []
  conflict : o.singles = false → ¬ Conflict gs
  later : ∀ g ∈ gs, ∀ w ∈ mp, w.letter ∉ g.cls.params
  comment : o.rmComments = true ∨ l.macro? = none ∨ ∀ c, l.comment = some (.semicolon c) → c = []

/-- The line, read by machine `m`, is tidy: with `--full` its effective gcodes are what is shown, and
otherwise its gcodes and left-over words. -/
def LineTidy (o : NormOpts) (m : Machine) (t : List Char) : Prop :=
  ∀ l gs, Line.ofText t = .ok l → m.blockModalGcodes l.block = .ok gs →
    if o.full then Tidy o l gs [] else Tidy o l l.block.gcodes l.block.modalParams

/-- All lines are, as they are reached. -/
def LinesTidy (o : NormOpts) (m : Machine) : List (List Char) → Prop
  | [] => True
  | t :: ts => LineTidy o m t ∧ LinesTidy o (m.processStr t).1 ts

/-! ## Left-over words -/

theorem overrideOne_perm {ps qs : List Word} (h : ps.Perm qs) (w : Word) :
    (overrideOne ps w).Perm (overrideOne qs w) := by
  unfold overrideOne
  have : (ps.map Word.letter).contains w.letter = (qs.map Word.letter).contains w.letter := by
    rw [Bool.eq_iff_iff, List.contains_iff_mem, List.contains_iff_mem]
    exact (h.map _).mem_iff
  rw [this]
  split_ifs
  · exact h.map _
  · exact h.append_right _

theorem override_perm (mp : List Word) : ∀ {ps qs : List Word}, ps.Perm qs → (override ps mp).Perm (override qs mp) := by
  induction mp with
  | nil => exact id
  | cons w mp ih => exact fun h => ih (overrideOne_perm h w)

theorem modalOf_same {g g' : GCode} (h : SameGCode g g') (mp : List Word) : SameGCode (modalOf g mp) (modalOf g' mp) := by
  refine ⟨h.1, h.2.1, ?_⟩
  show ((override g.params mp).filter _).Perm ((override g'.params mp).filter _)
  rw [h.1]
  exact (override_perm mp h.2.2).filter _

/-- Outcomes of `modal_gcode` with the same meaning. -/
def SameModal : Except Err (Option GCode) → Except Err (Option GCode) → Prop
  | .ok og, .ok og' => Option.Rel SameGCode og og'
  | .error e, .error e' => e = e'
  | _, _ => False

theorem modalGcode_alike {a b : Machine} (h : Alike a b) (ha : ModeOK a.mode) (hn : ModeAll Named a.mode)
    (mp : List Word) (hmp : ∀ w ∈ mp, wordClass w = none) : SameModal (a.modalGcode mp) (b.modalGcode mp) := by
  by_cases hne : mp = []
  · subst hne
    exact .none
  have h1 : Option.Rel SameGCode a.mode.motion b.mode.motion := h.mode 1
  have hg : ∀ g, a.mode.motion = some g → GOK g ∧ Named g := fun g hg => ⟨(ha 1 g hg).2.1, hn 1 g hg⟩
  cases hx : a.mode.motion with
  | none =>
    have hy : b.mode.motion = none := by
      rw [hx] at h1
      generalize b.mode.motion = y at h1
      cases h1; rfl
    unfold modalGcode
    rw [if_neg hne, if_neg hne, hx, hy, h.ignore]
    simp only
    split_ifs
    · exact .none
    · rfl
  | some g =>
    obtain ⟨g', hy, hs⟩ : ∃ g', b.mode.motion = some g' ∧ SameGCode g g' := by
      rw [hx] at h1
      generalize b.mode.motion = y at h1
      cases h1 with
      | some s => exact ⟨_, rfl, s⟩
    obtain ⟨g1, g2⟩ := hg g hx
    have g2' : Named g' := by unfold Named at g2 ⊢; rw [← hs.2.1, ← hs.1]; exact g2
    rw [modalGcode_closed a g hx g1 g2 mp hne hmp, modalGcode_closed b g' hy (hs.gok g1) g2' mp hne hmp,
      h.ignore, hs.1]
    split_ifs
    · rfl
    · exact .some (modalOf_same hs mp)

/-! ## Order -/

theorem orderedInsert_same {g g' : GCode} (hg : SameGCode g g') {gs gs' : List GCode}
    (h : List.Forall₂ SameGCode gs gs') :
    List.Forall₂ SameGCode (gs.orderedInsert (fun a b => a.cls.order ≤ b.cls.order) g)
      (gs'.orderedInsert (fun a b => a.cls.order ≤ b.cls.order) g') := by
  induction h with
  | nil => exact .cons hg .nil
  | @cons x x' xs xs' h1 h2 ih =>
    rw [List.orderedInsert_cons, List.orderedInsert_cons, hg.1, h1.1]
    split_ifs
    · exact .cons hg (.cons h1 h2)
    · exact .cons h1 ih

theorem execSort_same {gs gs' : List GCode} (h : List.Forall₂ SameGCode gs gs') :
    List.Forall₂ SameGCode (execSort gs) (execSort gs') := by
  induction h with
  | nil => exact .nil
  | cons h1 _ ih => exact orderedInsert_same h1 ih

theorem forall₂_canon (gs : List GCode) : List.Forall₂ SameGCode gs (gs.map canon) := by
  rw [List.forall₂_map_right_iff]
  exact List.forall₂_same.2 (fun g _ => canon_same g)

theorem execSort_idem (gs : List GCode) : execSort (execSort gs) = execSort gs :=
  List.Pairwise.insertionSort_eq (execSort_stable gs).2.1

/-! ## One written line -/

theorem processGcodes_alike {a b : Machine} (h : Alike a b) (ha : ModeOK a.mode) (hn : ModeAll Named a.mode)
    {gs gs' : List GCode} (hs : List.Forall₂ SameGCode gs gs') (hg : ∀ g ∈ gs, GOK g)
    (mp : List Word) (hmp : ∀ w ∈ mp, wordClass w = none) :
    AlikeRes (a.processGcodes gs mp) (b.processGcodes gs' mp) := by
  have hm := modalGcode_alike h ha hn mp hmp
  unfold processGcodes
  cases hx : a.modalGcode mp with
  | error e =>
    rw [hx] at hm
    cases hy : b.modalGcode mp with
    | error e' => rw [hy] at hm; cases hm; exact ⟨h, rfl⟩
    | ok og => rw [hy] at hm; exact hm.elim
  | ok og =>
    rw [hx] at hm
    cases hy : b.modalGcode mp with
    | error e' => rw [hy] at hm; exact hm.elim
    | ok og' =>
      rw [hy] at hm
      simp only
      have hot : List.Forall₂ SameGCode og.toList og'.toList := by
        change Option.Rel SameGCode og og' at hm
        cases hm with
        | none => exact .nil
        | some s => exact .cons s .nil
      refine processAll_alike (execSort_same (List.rel_append hs hot)) ?_ h
      exact sort_gok hg (fun g hog => modalGcode_gok (by rw [hx, hog]))

theorem processGcodes_sorted (m : Machine) (gs : List GCode) : m.processGcodes gs [] = m.processAll (execSort gs) := by
  unfold processGcodes
  have : m.modalGcode [] = .ok none := rfl
  rw [this]
  simp

theorem short_conflict (gs : List GCode) (h : gs.length ≤ 1) : ¬ Conflict gs := by
  rintro ⟨i, j, a, b, hij, ha, hb, -⟩
  rw [List.getElem?_eq_some_iff] at ha hb
  obtain ⟨h1, -⟩ := ha
  obtain ⟨h2, -⟩ := hb
  omega

theorem single_conflict (g : GCode) : ¬ Conflict [g] := short_conflict [g] (by simp)

theorem commentOK_none {mac : Option (List Char)} {c : Option Comment} (h : CommentOK mac c)
    (hcm : mac = none ∨ ∀ t, c = some (.semicolon t) → t = []) : CommentOK none c := by
  cases c with
  | none => trivial
  | some c =>
    cases c with
    | brackets t => exact h
    | semicolon t =>
      obtain ⟨h1, h2, h3, h4⟩ := h
      refine ⟨h1, h2, h3, fun _ => ?_⟩
      rcases hcm with rfl | hcm
      · exact h4 rfl
      · rw [hcm t rfl]; simp

theorem readLines_one (m : Machine) (t : List Char) : readLines m [t] = m.processStr t := by
  unfold readLines readLines andThen
  rcases m.processStr t with ⟨m', _ | e⟩ <;> rfl

theorem processAll_one (m : Machine) (g : GCode) : m.processAll [g] = m.process g := by
  unfold processAll processAll andThen
  rcases m.process g with ⟨m', _ | e⟩ <;> rfl

theorem nil_text (o : NormOpts) (hr : o.rmGcodes = []) (gs : List GCode) (mp : List Word) (c : Option Comment)
    (mac : Option (List Char)) (hp : ∀ w ∈ gs.flatMap (fun g => g.word :: g.params) ++ mp, PlainWord w)
    (hws : ∀ g ∈ gs, g.ws = false)
    (h : o.lineText gs mp c mac = []) : gs = [] ∧ mp = [] := by
  unfold NormOpts.lineText at h
  simp only [hr, if_true] at h
  rw [block_str_join gs mp hws] at h
  have hpr : ∀ w ∈ printedWords gs mp, PlainWord w := fun w hw => hp w ((printed_perm _ _).mem_iff.1 hw)
  have hz : printedWords gs mp = [] := by
    by_contra hne
    obtain ⟨w, ws, hw⟩ := List.exists_cons_of_ne_nil hne
    have hb : ∀ S : List Char, S ≠ [] → ∀ r : List (List Char), joinWith [' '] ((if S = [] then [] else [S]) ++ r) ≠ [] := by
      intro S hS r
      rw [if_neg hS]
      cases r with
      | nil => simpa [joinWith] using hS
      | cons x r => rw [List.singleton_append, joinWith_cons _ _ (by simp)]; simp
    have hl : ∀ r, joinWith [' '] ((w :: r).map Word.str) ≠ [] ∧ ((w :: r).map Word.str).flatten ≠ [] := by
      intro r
      constructor
      · cases r with
        | nil => simp [joinWith, Word.str]
        | cons x r => rw [List.map_cons, joinWith_cons _ _ (by simp)]; simp [Word.str]
      · simp [Word.str]
    rw [List.append_assoc] at h
    refine hb _ ?_ _ h
    split_ifs
    · rw [squeeze_words _ hpr, hw]; exact (hl ws).2
    · rw [hw]; exact (hl ws).1
  unfold printedWords at hz
  rw [List.append_eq_nil_iff] at hz
  refine ⟨?_, hz.2⟩
  cases gs with
  | nil => rfl
  | cons g gs => simp at hz

/-- What is written for one line without `--singles`, or for at most one gcode, reads back. -/
theorem writeOne_read (o : NormOpts) (hr : o.rmGcodes = []) {a b : Machine} (h : Alike a b)
    (ha : ModeOK a.mode) (hn : ModeAll Named a.mode) (gs : List GCode) (mp : List Word)
    (c : Option Comment) (mac : Option (List Char))
    (hcl : ∀ g ∈ gs, wordClass g.word = some g.cls)
    (hg : ∀ g ∈ gs, GOK g) (ho : Ordered gs) (hws : ∀ g ∈ gs, g.ws = false)
    (hm : ∀ w ∈ mp, wordClass w = none) (hd : ∀ g ∈ gs, ∀ w ∈ mp, w.letter ∉ g.cls.params)
    (hp : ∀ w ∈ gs.flatMap (fun g => g.word :: g.params) ++ mp, PlainWord w)
    (hnc : ¬ Conflict gs)
    (hc : CommentOK mac (if o.rmComments then none else c))
    (hmac : ∀ m', mac = some m' → ∃ r, m' = '%' :: r ∧ '\n' ∉ r)
    (hcm : mac = none ∨ ∀ t, (if o.rmComments then none else c) = some (.semicolon t) → t = []) :
    AlikeRes (a.processGcodes gs mp) (readLines b (o.writeOne gs mp c mac)) := by
  have hl := lineText_reread o hr gs mp c mac hcl hg ho hws hm hd hp hnc hc hmac hcm
  unfold NormOpts.writeOne
  by_cases hz : o.lineText gs mp c mac = [] ∧ o.rmBlanks = true
  · rw [if_pos hz]
    obtain ⟨rfl, rfl⟩ := nil_text o hr gs mp c mac hp hws hz.1
    rw [processGcodes_sorted]
    exact ⟨h, rfl⟩
  · rw [if_neg hz, readLines_one]
    unfold processStr
    rw [hl]
    exact processGcodes_alike h ha hn (forall₂_canon gs) hg mp hm

/-- Writing gcodes one per line. -/
theorem singles_read (o : NormOpts) (hr : o.rmGcodes = []) (c : Option Comment)
    (hc : CommentOK none (if o.rmComments then none else c)) (gs : List GCode) :
    ∀ {a b : Machine}, Alike a b → a.WF → ModeOK a.mode → ModeAll Named a.mode →
    (∀ g ∈ gs, wordClass g.word = some g.cls) → (∀ g ∈ gs, GOK g) → (∀ g ∈ gs, g.ws = false) →
    (∀ w ∈ gs.flatMap (fun g => g.word :: g.params), PlainWord w) →
    AlikeRes (a.processAll gs) (readLines b (gs.flatMap (fun g => o.writeOne [g] [] c none))) := by
  induction gs with
  | nil => exact fun h _ _ _ _ _ _ _ => ⟨h, rfl⟩
  | cons g gs ih =>
    intro a b h hwf ha hn hcl hg hws hp
    have h1 := writeOne_read o hr h ha hn [g] [] c none (fun x hx => hcl x (by simp_all)) (fun x hx => hg x (by simp_all))
      (by simp [Ordered]) (fun x hx => hws x (by simp_all)) (by simp) (by simp)
      (fun w hw => hp w (by
        rw [List.append_nil] at hw
        rw [List.flatMap_cons]
        simp only [List.flatMap_cons, List.flatMap_nil, List.append_nil] at hw
        exact List.mem_append.2 (.inl hw))) (single_conflict g) hc (by simp) (.inl rfl)
    rw [processGcodes_sorted, execSort_single, processAll_one] at h1
    rw [List.flatMap_cons, readLines_append]
    unfold processAll
    have hwf' : (a.process g).1.WF := (path_call a hwf (.gcode g) (hg g (by simp))).wf hwf
    have hok' : ModeOK (a.process g).1.mode := kept_ok.process a hwf g (hg g (by simp)) trivial ha
    have hn' : ModeAll Named (a.process g).1.mode := kept_named.process a hwf g (hg g (by simp)) (hcl g (by simp)) hn
    generalize a.process g = r at *
    generalize readLines b (o.writeOne [g] [] c none) = s at *
    obtain ⟨r, er⟩ := r
    obtain ⟨s, es⟩ := s
    obtain ⟨h2, h3⟩ := h1
    simp only at h2 h3
    subst h3
    cases er with
    | some e => exact ⟨h2, rfl⟩
    | none =>
      exact ih h2 hwf' hok' hn' (fun x hx => hcl x (by simp [hx])) (fun x hx => hg x (by simp [hx]))
        (fun x hx => hws x (by simp [hx])) (fun w hw => hp w (by rw [List.flatMap_cons]; exact List.mem_append.2 (.inr hw)))

/-- What `write` prints for a line reads back. -/
theorem write_read (o : NormOpts) (hr : o.rmGcodes = []) {a b : Machine} (h : Alike a b) (hwf : a.WF)
    (ha : ModeOK a.mode) (hn : ModeAll Named a.mode) (l : Line) (gs : List GCode) (mp : List Word)
    (hl : Tidy o l gs mp) (hfull : o.full = true → mp = [])
    (hcl : ∀ g ∈ gs, wordClass g.word = some g.cls)
    (hg : ∀ g ∈ gs, GOK g) (ho : Ordered gs) (hws : ∀ g ∈ gs, g.ws = false)
    (hm : ∀ w ∈ mp, wordClass w = none)
    (hc : CommentOK l.macro? l.comment)
    (hmac : ∀ m', l.macro? = some m' → ∃ r, m' = '%' :: r ∧ '\n' ∉ r) :
    ∃ ls, o.write gs mp l.comment l.macro? = .ok ls ∧ AlikeRes (a.processGcodes gs mp) (readLines b ls) := by
  have hc' : CommentOK l.macro? (if o.rmComments then none else l.comment) := by
    split_ifs
    · trivial
    · exact hc
  have hcm : l.macro? = none ∨ ∀ t, (if o.rmComments then none else l.comment) = some (.semicolon t) → t = [] := by
    rcases hl.comment with h | h | h
    · right; rw [if_pos h]; intro t ht; cases ht
    · exact .inl h
    · right
      intro t ht
      split_ifs at ht
      · exact h t ht
  unfold NormOpts.write
  rw [if_neg (by rintro ⟨h1, h2⟩; exact h2 (hfull h1))]
  by_cases hs : o.singles = true ∧ 1 < gs.length
  · rw [if_pos hs]
    refine ⟨_, rfl, ?_⟩
    have hmp := hl.single hs.1 hs.2
    subst hmp
    rw [processGcodes_sorted]
    have hst := (execSort_stable gs).1
    refine singles_read o hr l.comment (commentOK_none hc' hcm) (execSort gs) h hwf ha hn
      (fun g hg' => hcl g (hst.mem_iff.1 hg')) (fun g hg' => hg g (hst.mem_iff.1 hg'))
      (fun g hg' => hws g (hst.mem_iff.1 hg')) ?_
    intro w hw
    apply hl.plain w
    rw [List.append_nil]
    exact (hst.flatMap_right _).mem_iff.1 hw
  · rw [if_neg hs]
    refine ⟨_, rfl, writeOne_read o hr h ha hn gs mp l.comment l.macro? hcl hg ho hws hm hl.later hl.plain ?_ hc' hmac hcm⟩
    by_cases h1 : o.singles = true
    · refine short_conflict gs ?_
      by_contra h2
      exact hs ⟨h1, by omega⟩
    · exact hl.conflict (by simpa using h1)

/-! ## Lines -/

/-- What is known about the effective gcodes of a block. -/
theorem effective_block {m : Machine} {b : Block} (hbok : ∀ g ∈ b.gcodes, GOK g)
    (hbcls : ∀ g ∈ b.gcodes, wordClass g.word = some g.cls) (hbws : ∀ g ∈ b.gcodes, g.ws = false)
    (hbun : ∀ w ∈ b.modalParams, wordClass w = none)
    (ha : ModeOK m.mode) (hn : ModeAll Named m.mode) {gs : List GCode} (hgs : m.blockModalGcodes b = .ok gs) :
    (∀ g ∈ gs, wordClass g.word = some g.cls) ∧ (∀ g ∈ gs, GOK g) ∧ Ordered gs ∧ (∀ g ∈ gs, g.ws = false) ∧
      execSort gs = gs ∧ m.processBlock b = m.processAll gs := by
  unfold blockModalGcodes at hgs
  cases hmo : m.modalGcode b.modalParams with
  | error e => rw [hmo] at hgs; cases hgs
  | ok og =>
    rw [hmo] at hgs
    simp only at hgs
    cases hgs
    have hog : ∀ g, og = some g → wordClass g.word = some g.cls ∧ GOK g ∧ g.ws = false := by
      rintro g rfl
      by_cases hne : b.modalParams = []
      · unfold modalGcode at hmo; rw [if_pos hne] at hmo; cases hmo
      · cases hx : m.mode.motion with
        | none =>
          unfold modalGcode at hmo
          rw [if_neg hne, hx] at hmo
          simp only at hmo
          split_ifs at hmo
          · cases hmo
        | some x =>
          have h1 : GOK x := (ha 1 x hx).2.1
          have h2 : Named x := hn 1 x hx
          rw [modalGcode_closed m x hx h1 h2 _ hne hbun] at hmo
          split_ifs at hmo
          · cases hmo
            exact ⟨h2, modalOf_gok x h1 _, rfl⟩
    have hst := (execSort_stable (b.gcodes ++ og.toList)).1
    have hall : ∀ g ∈ b.gcodes ++ og.toList, wordClass g.word = some g.cls ∧ GOK g ∧ g.ws = false := by
      intro g hg
      rcases List.mem_append.1 hg with hg | hg
      · exact ⟨hbcls g hg, hbok g hg, hbws g hg⟩
      · exact hog g (by simpa using hg)
    refine ⟨fun g hg => (hall g (hst.mem_iff.1 hg)).1, fun g hg => (hall g (hst.mem_iff.1 hg)).2.1, ?_,
      fun g hg => (hall g (hst.mem_iff.1 hg)).2.2, execSort_idem _, ?_⟩
    · refine List.Pairwise.imp_of_mem ?_ (execSort_stable (b.gcodes ++ og.toList)).2.1
      intro x y hx hy hxy
      exact letters_later _ _ hxy _ (wordClass_letter (hall y (hst.mem_iff.1 hy)).1)
    · unfold processBlock processGcodes
      rw [hmo]

/-- What is known about the effective gcodes of a line. -/
theorem effective_ok {m : Machine} {t : List Char} {l : Line} (h : Line.ofText t = .ok l)
    (ha : ModeOK m.mode) (hn : ModeAll Named m.mode) {gs : List GCode} (hgs : m.blockModalGcodes l.block = .ok gs) :
    (∀ g ∈ gs, wordClass g.word = some g.cls) ∧ (∀ g ∈ gs, GOK g) ∧ Ordered gs ∧ (∀ g ∈ gs, g.ws = false) ∧
      execSort gs = gs ∧ m.processBlock l.block = m.processAll gs :=
  let hb := line_block_ok h
  effective_block hb.ok hb.cls hb.ws hb.unused ha hn hgs

/-- One line. -/
theorem line_read (o : NormOpts) (hr : o.rmGcodes = []) (he : o.cannedExpand = false) (hi : o.rmInvalid = false)
    (fuel : ℕ) {a b : Machine} (h : Alike a b) (hwf : a.WF) (ha : ModeOK a.mode) (hn : ModeAll Named a.mode)
    (t : List Char) (ht : LineTidy o a t) (a' : Machine) (hp : a.processStr t = (a', none)) :
    ∃ ls b', o.line fuel a t = ⟨ls, a', .done⟩ ∧ readLines b ls = (b', none) ∧ Alike a' b' := by
  unfold processStr at hp
  cases hl : Line.ofText t with
  | error e => rw [hl] at hp; cases hp
  | ok l =>
    rw [hl] at hp
    simp only at hp
    obtain ⟨gs, hgs⟩ : ∃ gs, a.blockModalGcodes l.block = .ok gs := by
      unfold processBlock processGcodes at hp
      unfold blockModalGcodes
      cases hm : a.modalGcode l.block.modalParams with
      | error e => rw [hm] at hp; cases hp
      | ok og => exact ⟨_, rfl⟩
    obtain ⟨e1, e2, e3, e4, e5, e6⟩ := effective_ok hl ha hn hgs
    obtain ⟨c1, c2⟩ := line_comment_ok hl
    have hb := line_block_ok hl
    have htd := ht l gs hl hgs
    have key : ∃ ls, (if o.full = true then o.write gs [] l.comment l.macro?
        else o.write l.block.gcodes l.block.modalParams l.comment l.macro?) = .ok ls ∧
        AlikeRes (a.processBlock l.block) (readLines b ls) := by
      by_cases hf : o.full = true
      · rw [if_pos hf] at htd ⊢
        have := write_read o hr h hwf ha hn l gs [] htd (fun _ => rfl) e1 e2 e3 e4 (by simp) c1 c2
        rw [processGcodes_sorted, e5, ← e6] at this
        exact this
      · rw [if_neg hf] at htd ⊢
        exact write_read o hr h hwf ha hn l _ _ htd (fun h => absurd h hf) hb.cls hb.ok hb.ordered hb.ws hb.unused c1 c2
    obtain ⟨ls, hw, hal⟩ := key
    rw [hp] at hal
    refine ⟨ls, (readLines b ls).1, ?_, ?_, hal.1⟩
    · unfold NormOpts.line
      rw [hl]
      simp only [hi, Bool.false_eq_true, if_false]
      rw [hgs]
      simp only [he, Bool.false_and, Bool.false_eq_true, if_false]
      unfold NormOpts.plainLine
      rw [hw]
      unfold NormRes.put NormRes.andThen
      simp only
      rw [hp]
      simp [NormRes.ofM]
    · exact Prod.ext rfl hal.2.symm

/-- **C66**: what `pygcode-norm` (without expansions and removals of gcodes) prints for tidy lines
leads the machine, read back, to the same state as the lines themselves: position, range, offsets,
and the same gcodes in every slot of the mode.  (This holds for any number of lines; so, since what
is printed for the first lines does not depend on the others, also after each of them.) -/
theorem C66_same_partial (o : NormOpts) (hr : o.rmGcodes = []) (he : o.cannedExpand = false) (hi : o.rmInvalid = false)
    (fuel : ℕ) (m : Machine) (hwf : m.WF) (hok : ModeOK m.mode) (hn : ModeAll Named m.mode)
    (ts : List (List Char)) (a : Machine) (hts : readLines m ts = (a, none)) (htd : LinesTidy o m ts) :
    ∃ ls b, o.loop fuel m ts = ⟨ls, a, .done⟩ ∧ readLines m ls = (b, none) ∧ Alike a b := by
  suffices key : ∀ (ts : List (List Char)) (m b : Machine), Alike m b → m.WF → ModeOK m.mode → ModeAll Named m.mode →
      readLines m ts = (a, none) → LinesTidy o m ts →
      ∃ ls b', o.loop fuel m ts = ⟨ls, a, .done⟩ ∧ readLines b ls = (b', none) ∧ Alike a b' from
    key ts m m (.refl m) hwf hok hn hts htd
  intro ts
  induction ts with
  | nil =>
    intro m b h _ _ _ hts _
    cases hts
    exact ⟨[], b, rfl, rfl, h⟩
  | cons t ts ih =>
    intro m b h hwf hok hn hts htd
    unfold readLines andThen at hts
    obtain ⟨ht1, ht2⟩ := htd
    cases hp : m.processStr t with
    | mk m' e =>
      rw [hp] at hts ht2
      cases e with
      | some e => cases hts
      | none =>
        simp only at hts ht2
        obtain ⟨ls, b', h1, h2, h3⟩ := line_read o hr he hi fuel h hwf hok hn t ht1 m' hp
        have hcall : (Call.str t).OK m.axes m.absPos.unit := trivial
        have hm' : ((Call.str t).run m).1 = m' := by simp [Call.run, hp]
        have w1 := (path_call m hwf (.str t) hcall).wf hwf
        have w2 := kept_ok.call m hwf (.str t) hcall trivial hok
        have w3 := kept_named.call m hwf (.str t) hcall trivial hn
        rw [hm'] at w1 w2 w3
        obtain ⟨ls', b'', k1, k2, k3⟩ := ih m' b' h3 w1 w2 w3 hts ht2
        refine ⟨ls ++ ls', b'', ?_, ?_, k3⟩
        · unfold NormOpts.loop
          rw [h1]
          unfold NormRes.andThen
          simp only [k1]
        · rw [readLines_append, h2]
          exact k2

/-! ## Cases -/

/-- A test for plain words (sufficient). -/
def plainB (w : Word) : Bool :=
  match kindOf w.letter, w.val with
  | some .flt, .num q => (decide (q.den = 1) && decide (|q.num| < 10 ^ 6)) ||
      (decide ((q * 10).den = 1) && decide (|(q * 10).num| < 10 ^ 6))
  | some .code, .num q => (decide (q.den = 1) && decide (0 ≤ q.num) && decide (q.num < 10 ^ 6)) ||
      (decide ((q * 10).den = 1) && decide (0 ≤ (q * 10).num) && decide ((q * 10).num < 10 ^ 6))
  | some .posint, .num q => decide (q.den = 1) && decide (0 ≤ q.num) && decide (q.num < 10 ^ 6)
  | _, _ => false

theorem plainB_sound {w : Word} (h : plainB w = true) : PlainWord w := by
  have hnum : ∀ q : ℚ, q.den = 1 → q = q.num := fun q hq => (Rat.den_eq_one_iff q).1 hq |>.symm
  obtain ⟨l, v⟩ := w
  unfold plainB at h
  unfold PlainWord Printable
  simp only at h ⊢
  have hO : kindOf 'O' = some .name := by decide
  have hT : kindOf 'T' = some .tool := by decide
  cases hk : kindOf l with
  | none => rw [hk] at h; simp at h
  | some k =>
    rw [hk] at h
    cases v with
    | str s => cases k <;> simp at h
    | num q =>
      have hl : l ≠ 'O' ∧ (l = 'T' → ∀ c ∈ Word.valueStr ⟨l, .num q⟩, isSpace c = false) := by
        constructor
        · rintro rfl; rw [hO] at hk; cases hk; simp at h
        · rintro rfl; rw [hT] at hk; cases hk; simp at h
      refine ⟨?_, hl⟩
      cases k with
      | flt =>
        simp only [Bool.or_eq_true, Bool.and_eq_true, decide_eq_true_eq] at h ⊢
        rcases h with ⟨h1, h2⟩ | ⟨h1, h2⟩
        · exact ⟨q.num, 0, by omega, h2, by rw [pow_zero, div_one]; exact hnum q h1⟩
        · refine ⟨(q * 10).num, 1, by omega, h2, ?_⟩
          rw [← hnum _ h1]; ring
      | code =>
        simp only [Bool.or_eq_true, Bool.and_eq_true, decide_eq_true_eq] at h ⊢
        rcases h with ⟨⟨h1, h2⟩, h3⟩ | ⟨⟨h1, h2⟩, h3⟩
        · refine ⟨q.num.toNat, 0, by omega, by omega, ?_⟩
          have : ((q.num.toNat : ℕ) : ℚ) = q.num := by exact_mod_cast Int.toNat_of_nonneg h2
          rw [this, pow_zero, div_one]; exact hnum q h1
        · refine ⟨(q * 10).num.toNat, 1, by omega, by omega, ?_⟩
          have : (((q * 10).num.toNat : ℕ) : ℚ) = (q * 10).num := by exact_mod_cast Int.toNat_of_nonneg h2
          rw [this, ← hnum _ h1]; ring
      | posint =>
        simp only [Bool.and_eq_true, decide_eq_true_eq] at h ⊢
        obtain ⟨⟨h1, h2⟩, h3⟩ := h
        refine ⟨q.num.toNat, by omega, ?_⟩
        have : ((q.num.toNat : ℕ) : ℚ) = q.num := by exact_mod_cast Int.toNat_of_nonneg h2
        rw [this]; exact hnum q h1
      | tool => simp at h
      | name => simp at h

/-- A test for tidy lines (sufficient). -/
def tidyB (o : NormOpts) (l : Line) (gs : List GCode) (mp : List Word) : Bool :=
  (gs.flatMap (fun g => g.word :: g.params) ++ mp).all plainB &&
  (!o.singles || decide (gs.length ≤ 1) || decide (mp = [])) &&
  (o.singles || (Block.assertLoop [] [] gs).isOk) &&
  gs.all (fun g => mp.all (fun w => decide (w.letter ∉ g.cls.params))) &&
  decide (l.macro? = none)

theorem tidyB_sound {o : NormOpts} {l : Line} {gs : List GCode} {mp : List Word} (h : tidyB o l gs mp = true) :
    Tidy o l gs mp := by
  unfold tidyB at h
  simp only [Bool.and_eq_true, List.all_eq_true, Bool.or_eq_true, Bool.not_eq_true', decide_eq_true_eq] at h
  obtain ⟨⟨⟨⟨h1, h2⟩, h3⟩, h4⟩, h5⟩ := h
  refine ⟨fun w hw => plainB_sound (h1 w hw), ?_, ?_, h4, .inr (.inl h5)⟩
  · intro hs hlen
    rcases h2 with (h2 | h2) | h2
    · rw [hs] at h2; cases h2
    · omega
    · exact h2
  · intro hs
    rcases h3 with h3 | h3
    · rw [hs] at h3; cases h3
    · rw [← assert_conflict]
      cases hx : Block.assertLoop [] [] gs with
      | ok u => rfl
      | error e => rw [hx] at h3; cases h3

/-- The same for all lines. -/
def linesTidyB (o : NormOpts) (m : Machine) : List (List Char) → Bool
  | [] => true
  | t :: ts =>
    (match Line.ofText t with
      | .error _ => true
      | .ok l =>
        match m.blockModalGcodes l.block with
        | .error _ => true
        | .ok gs => if o.full then tidyB o l gs [] else tidyB o l l.block.gcodes l.block.modalParams) &&
      linesTidyB o (m.processStr t).1 ts

theorem linesTidyB_sound {o : NormOpts} (ts : List (List Char)) :
    ∀ {m : Machine}, linesTidyB o m ts = true → LinesTidy o m ts := by
  induction ts with
  | nil => exact fun _ => trivial
  | cons t ts ih =>
    intro m h
    unfold linesTidyB at h
    rw [Bool.and_eq_true] at h
    refine ⟨?_, ih h.2⟩
    intro l gs hl hgs
    have h1 := h.1
    rw [hl] at h1
    simp only [hgs] at h1
    by_cases hf : o.full = true
    · rw [if_pos hf] at h1 ⊢; exact tidyB_sound h1
    · rw [if_neg hf] at h1 ⊢; exact tidyB_sound h1

/-- A program with modal lines, a canned cycle that is repeated, and comments. -/
def normSample : List (List Char) :=
  ["G17 G90 G21", "G1 F100 Z5 X1 (start)", "Y2.5 ; modal", "", "G81 X1 Y2 Z-3 R2 M8", "X5", "G80 M9"].map String.toList

example : linesTidyB { full := true } newNull normSample = true ∧
    linesTidyB { full := true, singles := true, rmComments := true, rmBlanks := true } newNull normSample = true ∧
    linesTidyB { rmWhitespace := true } newNull normSample = true ∧
    (readLines newNull normSample).2 = none := by decide +kernel

example : (({ full := true } : NormOpts).loop 0 newNull normSample).out =
    ["G17 G21 G90", "F100 G01 X1 Z5 (start)", "G01 Y2.5 ; modal", "", "M08 G81 R2 X1 Y2 Z-3", "G81 R2 X5 Y2 Z-3",
      "M09 G80"].map String.toList := by decide +kernel
example : (({ rmWhitespace := true } : NormOpts).loop 0 newNull normSample).out =
    ["G17G90G21", "G01X1Z5F100 (start)", "Y2.5 ; modal", "", "G81R2X1Y2Z-3M08", "X5", "G80M09"].map String.toList := by
  decide +kernel
example : (({ full := true, singles := true, rmComments := true, rmBlanks := true } : NormOpts).loop 0 newNull
    normSample).out = ["G17", "G21", "G90", "F100", "G01 X1 Z5", "G01 Y2.5", "M08", "G81 R2 X1 Y2 Z-3",
      "G81 R2 X5 Y2 Z-3", "M09", "G80"].map String.toList := by decide +kernel

/-! ## Where it does not hold -/

/-- `--singles` without `--full` loses left-over words: the program moves to X4, its normalized form
does not. -/
theorem C66_singles_refuted :
    ∃ ts : List (List Char), (readLines newNull ts).2 = none ∧
      (({ singles := true } : NormOpts).loop 0 newNull ts).status = .done ∧
      (readLines newNull (({ singles := true } : NormOpts).loop 0 newNull ts).out).2 = none ∧
      (readLines newNull ts).1.absPos.val .X = 4 ∧
      (readLines newNull (({ singles := true } : NormOpts).loop 0 newNull ts).out).1.absPos.val .X = 1 :=
  ⟨["G0 X1", "G17 M3 X4"].map String.toList, by decide +kernel⟩

/-- `--full` can put two gcodes of one group on a line, which is then refused. -/
theorem C66_full_refuted :
    ∃ ts : List (List Char), (readLines newNull ts).2 = none ∧
      (({ full := true } : NormOpts).loop 0 newNull ts).status = .done ∧
      (readLines newNull (({ full := true } : NormOpts).loop 0 newNull ts).out).2 = some .assertion :=
  ⟨["G17 G90", "G81 X1 Y1 Z-1 R2", "G1 X3 R2"].map String.toList, by decide +kernel⟩

/-- Without options: a word in front of the gcode that accepts it is taken by that gcode afterwards. -/
theorem C66_plain_refuted :
    ∃ ts : List (List Char), (readLines newNull ts).2 = none ∧
      (({} : NormOpts).loop 0 newNull ts).status = .done ∧
      (readLines newNull (({} : NormOpts).loop 0 newNull ts).out).2 = none ∧
      ((readLines newNull ts).1.mode.motion.map GCode.cls,
        (readLines newNull (({} : NormOpts).loop 0 newNull ts).out).1.mode.motion.map GCode.cls) =
        (some .rapidMove, some .linearMove) :=
  ⟨["G0", "X1 G1 Y2"].map String.toList, by decide +kernel⟩

/-! ## Normalizing twice -/

/-- A line that `o` prints as it is; what it shows can be printed again. -/
def Fixed (o : NormOpts) (t : List Char) : Prop :=
  ∃ l, Line.ofText t = .ok l ∧ o.write l.block.gcodes l.block.modalParams l.comment l.macro? = .ok [t] ∧
    (o.full = true → l.block.modalParams = [] ∧ execSort l.block.gcodes = l.block.gcodes) ∧
    (∀ w ∈ l.block.words, PlainWord w) ∧ (∀ g ∈ l.block.gcodes, ∀ w ∈ l.block.modalParams, w.letter ∉ g.cls.params) ∧
    (l.macro? = none ∨ ∀ c, l.comment = some (.semicolon c) → c = [])

theorem lineText_canon (o : NormOpts) (hr : o.rmGcodes = []) (gs : List GCode) (mp : List Word) (c : Option Comment)
    (mac : Option (List Char)) :
    o.lineText (gs.map canon) mp (if o.rmComments then none else c) mac = o.lineText gs mp c mac := by
  unfold NormOpts.lineText
  simp only [hr, if_true, List.map_map]
  have h1 : gs.map (GCode.str ∘ canon) = gs.map GCode.str := List.map_congr_left (fun g _ => canon_str g)
  have h2 : (if o.rmComments = true then none else if o.rmComments = true then none else c) =
      if o.rmComments = true then none else c := by
    split_ifs <;> rfl
  rw [h1, h2]

theorem writeOne_fixed (o : NormOpts) (hr : o.rmGcodes = []) (gs : List GCode) (mp : List Word)
    (c : Option Comment) (mac : Option (List Char))
    (hfull : o.full = true → mp = [] ∧ execSort gs = gs) (hs : ¬ (o.singles = true ∧ 1 < gs.length))
    (hcl : ∀ g ∈ gs, wordClass g.word = some g.cls)
    (hg : ∀ g ∈ gs, GOK g) (ho : Ordered gs) (hws : ∀ g ∈ gs, g.ws = false)
    (hm : ∀ w ∈ mp, wordClass w = none) (hd : ∀ g ∈ gs, ∀ w ∈ mp, w.letter ∉ g.cls.params)
    (hp : ∀ w ∈ gs.flatMap (fun g => g.word :: g.params) ++ mp, PlainWord w)
    (hnc : ¬ Conflict gs)
    (hc : CommentOK mac (if o.rmComments then none else c))
    (hmac : ∀ m', mac = some m' → ∃ r, m' = '%' :: r ∧ '\n' ∉ r)
    (hcm : mac = none ∨ ∀ t, (if o.rmComments then none else c) = some (.semicolon t) → t = []) :
    ∀ t ∈ o.writeOne gs mp c mac, Fixed o t := by
  intro t ht
  have hl := lineText_reread o hr gs mp c mac hcl hg ho hws hm hd hp hnc hc hmac hcm
  unfold NormOpts.writeOne at ht
  by_cases hz : o.lineText gs mp c mac = [] ∧ o.rmBlanks = true
  · rw [if_pos hz] at ht; simp at ht
  · rw [if_neg hz, List.mem_singleton] at ht
    subst ht
    refine ⟨_, hl, ?_, ?_, ?_, ?_, hcm⟩
    · simp only
      unfold NormOpts.write
      rw [if_neg (by rintro ⟨h1, h2⟩; exact h2 (hfull h1).1), List.length_map, if_neg hs]
      unfold NormOpts.writeOne
      rw [lineText_canon o hr, if_neg hz]
    · intro hf
      refine ⟨(hfull hf).1, ?_⟩
      show execSort (gs.map canon) = gs.map canon
      apply List.Pairwise.insertionSort_eq
      rw [List.pairwise_map]
      have := (execSort_stable gs).2.1
      rw [(hfull hf).2] at this
      exact this
    · exact fun w hw => hp w ((printed_perm _ _).mem_iff.1 hw)
    · intro g hgm w hw
      obtain ⟨g', hg', rfl⟩ := List.mem_map.1 hgm
      exact hd g' hg' w hw

theorem write_fixed (o : NormOpts) (hr : o.rmGcodes = []) (l : Line) (gs : List GCode) (mp : List Word)
    (hl : Tidy o l gs mp) (hfull : o.full = true → mp = [] ∧ execSort gs = gs)
    (hcl : ∀ g ∈ gs, wordClass g.word = some g.cls)
    (hg : ∀ g ∈ gs, GOK g) (ho : Ordered gs) (hws : ∀ g ∈ gs, g.ws = false)
    (hm : ∀ w ∈ mp, wordClass w = none)
    (hc : CommentOK l.macro? l.comment)
    (hmac : ∀ m', l.macro? = some m' → ∃ r, m' = '%' :: r ∧ '\n' ∉ r)
    (ls : List (List Char)) (h : o.write gs mp l.comment l.macro? = .ok ls) : ∀ t ∈ ls, Fixed o t := by
  have hc' : CommentOK l.macro? (if o.rmComments then none else l.comment) := by
    split_ifs
    · trivial
    · exact hc
  have hcm : l.macro? = none ∨ ∀ t, (if o.rmComments then none else l.comment) = some (.semicolon t) → t = [] := by
    rcases hl.comment with h | h | h
    · right; rw [if_pos h]; intro t ht; cases ht
    · exact .inl h
    · right
      intro t ht
      split_ifs at ht
      · exact h t ht
  unfold NormOpts.write at h
  rw [if_neg (by rintro ⟨h1, h2⟩; exact h2 (hfull h1).1)] at h
  by_cases hs : o.singles = true ∧ 1 < gs.length
  · rw [if_pos hs] at h
    cases h
    intro t ht
    obtain ⟨g, hgm, ht⟩ := List.mem_flatMap.1 ht
    have hgm' := (execSort_stable gs).1.mem_iff.1 hgm
    refine writeOne_fixed o hr [g] [] l.comment none (fun _ => ⟨rfl, execSort_single g⟩) (by simp) ?_ ?_ (by simp [Ordered])
      ?_ (by simp) (by simp) ?_ (single_conflict g) (commentOK_none hc' hcm) (by simp) (.inl rfl) t ht
    · intro x hx; rw [List.mem_singleton] at hx; subst hx; exact hcl x hgm'
    · intro x hx; rw [List.mem_singleton] at hx; subst hx; exact hg x hgm'
    · intro x hx; rw [List.mem_singleton] at hx; subst hx; exact hws x hgm'
    · intro w hw
      refine hl.plain w (List.mem_append.2 (.inl (List.mem_flatMap.2 ⟨g, hgm', ?_⟩)))
      simpa using hw
  · rw [if_neg hs] at h
    cases h
    refine writeOne_fixed o hr gs mp l.comment l.macro? hfull hs hcl hg ho hws hm hl.later hl.plain ?_ hc' hmac hcm
    by_cases h1 : o.singles = true
    · refine short_conflict gs ?_
      by_contra h2
      exact hs ⟨h1, by omega⟩
    · exact hl.conflict (by simpa using h1)

theorem fixed_loop (o : NormOpts) (he : o.cannedExpand = false) (hi : o.rmInvalid = false) (fuel : ℕ)
    (ls : List (List Char)) (hf : ∀ t ∈ ls, Fixed o t) :
    ∀ (b b' : Machine), readLines b ls = (b', none) → o.loop fuel b ls = ⟨ls, b', .done⟩ := by
  induction ls with
  | nil => intro b b' h; cases h; rfl
  | cons t ls ih =>
    intro b b' h
    unfold readLines andThen at h
    cases hp : b.processStr t with
    | mk m' e =>
      rw [hp] at h
      cases e with
      | some e => cases h
      | none =>
        simp only at h
        have := ih (fun t ht => hf t (List.mem_cons_of_mem _ ht)) m' b' h
        obtain ⟨l, h1, h2, h3, -⟩ := hf t List.mem_cons_self
        have hl : o.line fuel b t = ⟨[t], m', .done⟩ := by
          unfold processStr at hp
          rw [h1] at hp
          simp only at hp
          obtain ⟨gs, hgs, hgs'⟩ : ∃ gs, b.blockModalGcodes l.block = .ok gs ∧ (o.full = true → gs = l.block.gcodes) := by
            unfold blockModalGcodes
            unfold processBlock processGcodes at hp
            cases hm : b.modalGcode l.block.modalParams with
            | error e => rw [hm] at hp; cases hp
            | ok og =>
              refine ⟨_, rfl, fun hf => ?_⟩
              obtain ⟨k1, k2⟩ := h3 hf
              rw [k1] at hm
              cases hm
              simpa using k2
          unfold NormOpts.line
          rw [h1]
          simp only [hi, Bool.false_eq_true, if_false]
          rw [hgs]
          simp only [he, Bool.false_and, Bool.false_eq_true, if_false]
          unfold NormOpts.plainLine
          have hw : (if o.full = true then o.write gs [] l.comment l.macro?
              else o.write l.block.gcodes l.block.modalParams l.comment l.macro?) = .ok [t] := by
            by_cases hfu : o.full = true
            · rw [if_pos hfu, hgs' hfu, ← (h3 hfu).1]; exact h2
            · rw [if_neg hfu]; exact h2
          rw [hw]
          unfold NormRes.put NormRes.andThen
          simp only
          rw [hp]
          simp [NormRes.ofM]
        unfold NormOpts.loop
        rw [hl]
        unfold NormRes.andThen
        simp only [this]
        rfl

/-- Every printed line is one that is printed as it is. -/
theorem loop_fixed (o : NormOpts) (hr : o.rmGcodes = []) (he : o.cannedExpand = false) (hi : o.rmInvalid = false)
    (fuel : ℕ) (m : Machine) (hwf : m.WF) (hok : ModeOK m.mode) (hn : ModeAll Named m.mode)
    (ts : List (List Char)) (a : Machine) (hts : readLines m ts = (a, none)) (htd : LinesTidy o m ts)
    (ls : List (List Char)) (h1 : o.loop fuel m ts = ⟨ls, a, .done⟩) : ∀ t ∈ ls, Fixed o t := by
  induction ts generalizing m ls with
  | nil => cases h1; simp
  | cons t ts ih =>
    unfold readLines andThen at hts
    obtain ⟨ht1, ht2⟩ := htd
    cases hp : m.processStr t with
    | mk m' e =>
      rw [hp] at hts ht2
      cases e with
      | some e => cases hts
      | none =>
        simp only at hts ht2
        obtain ⟨ls1, b', k1, -, -⟩ := line_read o hr he hi fuel (.refl m) hwf hok hn t ht1 m' hp
        have hcall : (Call.str t).OK m.axes m.absPos.unit := trivial
        have hm' : ((Call.str t).run m).1 = m' := by simp [Call.run, hp]
        have w1 := (path_call m hwf (.str t) hcall).wf hwf
        have w2 := kept_ok.call m hwf (.str t) hcall trivial hok
        have w3 := kept_named.call m hwf (.str t) hcall trivial hn
        rw [hm'] at w1 w2 w3
        obtain ⟨ls2, b2, k2, -, -⟩ := C66_same_partial o hr he hi fuel m' w1 w2 w3 ts a hts ht2
        unfold NormOpts.loop at h1
        rw [k1] at h1
        unfold NormRes.andThen at h1
        simp only [k2] at h1
        cases h1
        intro x hx
        rcases List.mem_append.1 hx with hx | hx
        · -- lines of the first
          unfold processStr at hp
          cases hl : Line.ofText t with
          | error e => rw [hl] at hp; cases hp
          | ok l =>
            rw [hl] at hp
            simp only at hp
            unfold NormOpts.line at k1
            rw [hl] at k1
            simp only [hi, Bool.false_eq_true, if_false] at k1
            cases hgs : m.blockModalGcodes l.block with
            | error e => rw [hgs] at k1; simp at k1
            | ok gs =>
              rw [hgs] at k1
              simp only [he, Bool.false_and, Bool.false_eq_true, if_false] at k1
              obtain ⟨e1, e2, e3, e4, e5, e6⟩ := effective_ok hl hok hn hgs
              obtain ⟨c1, c2⟩ := line_comment_ok hl
              have hb := line_block_ok hl
              have htd := ht1 l gs hl hgs
              unfold NormOpts.plainLine at k1
              by_cases hf : o.full = true
              · rw [if_pos hf] at htd k1
                cases hw : o.write gs [] l.comment l.macro? with
                | error e => rw [hw] at k1; simp [NormRes.put, NormRes.andThen] at k1
                | ok ls =>
                  rw [hw] at k1
                  have hls : ls = ls1 := by
                    simp [NormRes.put, NormRes.andThen, hp, NormRes.ofM] at k1
                    exact k1
                  subst hls
                  exact write_fixed o hr l gs [] htd (fun _ => ⟨rfl, e5⟩) e1 e2 e3 e4 (by simp) c1 c2 ls hw x hx
              · rw [if_neg hf] at htd k1
                cases hw : o.write l.block.gcodes l.block.modalParams l.comment l.macro? with
                | error e => rw [hw] at k1; simp [NormRes.put, NormRes.andThen] at k1
                | ok ls =>
                  rw [hw] at k1
                  have hls : ls = ls1 := by
                    simp [NormRes.put, NormRes.andThen, hp, NormRes.ofM] at k1
                    exact k1
                  subst hls
                  exact write_fixed o hr l _ _ htd (fun h => absurd h hf) hb.cls hb.ok hb.ordered hb.ws hb.unused c1 c2
                    ls hw x hx
        · exact ih m' w1 w2 w3 hts ht2 ls2 k2 x hx

/-- **C66** (again): running `pygcode-norm` with the same options on its own output prints the same
output. -/
theorem C66_idempotent (o : NormOpts) (hr : o.rmGcodes = []) (he : o.cannedExpand = false) (hi : o.rmInvalid = false)
    (fuel : ℕ) (m : Machine) (hwf : m.WF) (hok : ModeOK m.mode) (hn : ModeAll Named m.mode)
    (ts : List (List Char)) (a : Machine) (hts : readLines m ts = (a, none)) (htd : LinesTidy o m ts) :
    (o.loop fuel m (o.loop fuel m ts).out).out = (o.loop fuel m ts).out ∧
      (o.loop fuel m (o.loop fuel m ts).out).status = .done := by
  obtain ⟨ls, b, h1, h2, -⟩ := C66_same_partial o hr he hi fuel m hwf hok hn ts a hts htd
  rw [h1]
  simp only
  rw [fixed_loop o he hi fuel ls (loop_fixed o hr he hi fuel m hwf hok hn ts a hts htd ls h1) m b h2]
  exact ⟨rfl, rfl⟩

end Pygcode
