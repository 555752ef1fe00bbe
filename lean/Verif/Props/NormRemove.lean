import Verif.Props.Norm

/-!
# C77: `pygcode-norm --rm_gcodes`
-/

namespace Pygcode
open Props Machine Spec

/-! ## Specification -/

/-- The gcodes whose word is not listed. -/
def kept (rm : List Word) (gs : List GCode) : List GCode := gs.filter (fun g => decide (g.word ∉ rm))

/-- What is shown of a line, after the removal, can be printed so that it reads back. -/
structure TidyKept (o : NormOpts) (l : Line) (gs : List GCode) (mp : List Word) : Prop where
  plain : ∀ w ∈ (kept o.rmGcodes gs).flatMap (fun g => g.word :: g.params) ++ mp, PlainWord w
  single : o.singles = true → 1 < gs.length → mp = []
  conflict : o.singles = false → ¬ Conflict (kept o.rmGcodes gs)
  later : ∀ g ∈ kept o.rmGcodes gs, ∀ w ∈ mp, w.letter ∉ g.cls.params
  comment : o.rmComments = true ∨ l.macro? = none ∨ ∀ c, l.comment = some (.semicolon c) → c = []

/-- All lines are, as the script reaches them. -/
def LinesTidyKept (o : NormOpts) (m : Machine) : List (List Char) → Prop
  | [] => True
  | t :: ts => (∀ l gs, Line.ofText t = .ok l → m.blockModalGcodes l.block = .ok gs →
      if o.full then TidyKept o l gs [] else TidyKept o l l.block.gcodes l.block.modalParams) ∧
    LinesTidyKept o (m.processStr t).1 ts

/-- The program with the listed gcodes left out: `a` executes all of it, and `b`, for each line, the gcodes that
`a` executes for it (the gcode made from the motion mode included), except those with a listed word. -/
def runWithout (rm : List Word) (a b : Machine) : List (List Char) → MRes
  | [] => (b, none)
  | t :: ts =>
    match Line.ofText t with
    | .error e => (b, some e)
    | .ok l =>
      match a.blockModalGcodes l.block with
      | .error e => (b, some e)
      | .ok gs => andThen (b.processAll (kept rm gs)) (fun b' => runWithout rm (a.processStr t).1 b' ts)

/-- The same when left-over words are not completed: `b` completes them by its own motion mode. -/
def blocksWithout (rm : List Word) (b : Machine) : List (List Char) → MRes
  | [] => (b, none)
  | t :: ts =>
    match Line.ofText t with
    | .error e => (b, some e)
    | .ok l => andThen (b.processGcodes (kept rm l.block.gcodes) l.block.modalParams) (fun b' => blocksWithout rm b' ts)

/-- A printed line that is read without a listed gcode in it. -/
def Unlisted (rm : List Word) (t : List Char) : Prop :=
  ∃ l, Line.ofText t = .ok l ∧ ∀ g ∈ l.block.gcodes, g.word ∉ rm

/-- No gcode that is executed for the program has a listed word. -/
def NoneListed (rm : List Word) (m : Machine) : List (List Char) → Prop
  | [] => True
  | t :: ts => (∀ l gs, Line.ofText t = .ok l → m.blockModalGcodes l.block = .ok gs → ∀ g ∈ gs, g.word ∉ rm) ∧
    NoneListed rm (m.processStr t).1 ts

/-! ## Writing -/

theorem kept_mem {rm : List Word} {gs : List GCode} {g : GCode} (h : g ∈ kept rm gs) : g ∈ gs ∧ g.word ∉ rm := by
  obtain ⟨h1, h2⟩ := List.mem_filter.1 h
  exact ⟨h1, of_decide_eq_true h2⟩

theorem kept_nil (gs : List GCode) : kept [] gs = gs := by
  unfold kept
  exact List.filter_eq_self.2 (fun g _ => by simp)

theorem kept_sort (rm : List Word) (gs : List GCode) : execSort (kept rm gs) = kept rm (execSort gs) := by
  refine stableSorted_unique (kept rm gs) _ _ (execSort_stable _) ?_
  obtain ⟨h1, h2, h3⟩ := execSort_stable gs
  refine ⟨h1.filter _, h2.filter _, fun n => ?_⟩
  unfold kept
  rw [List.filter_filter, List.filter_filter]
  have := congrArg (List.filter (fun g => decide (g.word ∉ rm))) (h3 n)
  rw [List.filter_filter, List.filter_filter] at this
  simpa [Bool.and_comm] using this

theorem lineText_kept (o : NormOpts) (gs : List GCode) (mp : List Word) (c : Option Comment) (mac : Option (List Char)) :
    o.lineText gs mp c mac = ({ o with rmGcodes := [] } : NormOpts).lineText (kept o.rmGcodes gs) mp c mac := by
  unfold NormOpts.lineText
  simp only [if_true]
  by_cases h : o.rmGcodes = []
  · rw [if_pos h, h, kept_nil]
  · rw [if_neg h]; rfl

theorem writeOne_kept (o : NormOpts) (gs : List GCode) (mp : List Word) (c : Option Comment) (mac : Option (List Char)) :
    o.writeOne gs mp c mac = ({ o with rmGcodes := [] } : NormOpts).writeOne (kept o.rmGcodes gs) mp c mac := by
  unfold NormOpts.writeOne
  rw [lineText_kept]

theorem writeOne_unlisted (o : NormOpts) (gs : List GCode) (mp : List Word)
    (c : Option Comment) (mac : Option (List Char))
    (hcl : ∀ g ∈ gs, wordClass g.word = some g.cls)
    (hg : ∀ g ∈ gs, GOK g) (ho : Ordered gs) (hws : ∀ g ∈ gs, g.ws = false)
    (hm : ∀ w ∈ mp, wordClass w = none) (hd : ∀ g ∈ kept o.rmGcodes gs, ∀ w ∈ mp, w.letter ∉ g.cls.params)
    (hp : ∀ w ∈ (kept o.rmGcodes gs).flatMap (fun g => g.word :: g.params) ++ mp, PlainWord w)
    (hnc : ¬ Conflict (kept o.rmGcodes gs))
    (hc : CommentOK mac (if o.rmComments then none else c))
    (hmac : ∀ m', mac = some m' → ∃ r, m' = '%' :: r ∧ '\n' ∉ r)
    (hcm : mac = none ∨ ∀ t, (if o.rmComments then none else c) = some (.semicolon t) → t = []) :
    ∀ t ∈ o.writeOne gs mp c mac, Unlisted o.rmGcodes t := by
  intro t ht
  have hl := lineText_reread { o with rmGcodes := [] } rfl (kept o.rmGcodes gs) mp c mac
    (fun g hg' => hcl g (kept_mem hg').1) (fun g hg' => hg g (kept_mem hg').1) (ho.filter _)
    (fun g hg' => hws g (kept_mem hg').1) hm hd hp hnc hc hmac hcm
  rw [← lineText_kept] at hl
  unfold NormOpts.writeOne at ht
  split_ifs at ht
  · simp at ht
  · rw [List.mem_singleton] at ht
    subst ht
    refine ⟨_, hl, ?_⟩
    intro g hg'
    obtain ⟨x, hx, rfl⟩ := List.mem_map.1 hg'
    exact (kept_mem hx).2

theorem singles_kept (o : NormOpts) (c : Option Comment)
    (hc : CommentOK none (if o.rmComments then none else c)) (gs : List GCode) :
    ∀ {a b : Machine}, Alike a b → a.WF → ModeOK a.mode → ModeAll Named a.mode →
    (∀ g ∈ gs, wordClass g.word = some g.cls) → (∀ g ∈ gs, GOK g) → (∀ g ∈ gs, g.ws = false) →
    (∀ w ∈ (kept o.rmGcodes gs).flatMap (fun g => g.word :: g.params), PlainWord w) →
    AlikeRes (a.processAll (kept o.rmGcodes gs)) (readLines b (gs.flatMap (fun g => o.writeOne [g] [] c none))) := by
  induction gs with
  | nil => exact fun h _ _ _ _ _ _ _ => ⟨h, rfl⟩
  | cons g gs ih =>
    intro a b h hwf ha hn hcl hg hws hp
    rw [List.flatMap_cons, readLines_append, writeOne_kept]
    by_cases hk : g.word ∈ o.rmGcodes
    · have h0 : kept o.rmGcodes [g] = [] := by simp [kept, hk]
      have h1 : kept o.rmGcodes (g :: gs) = kept o.rmGcodes gs := by simp [kept, hk]
      have h2 := writeOne_read { o with rmGcodes := [] } rfl h ha hn [] [] c none (by simp) (by simp)
        (by simp [Ordered]) (by simp) (by simp) (by simp) (by simp) (short_conflict [] (by simp)) hc (by simp) (.inl rfl)
      rw [processGcodes_sorted] at h2
      rw [h1] at hp ⊢
      rw [h0]
      generalize readLines b _ = s at *
      obtain ⟨s, es⟩ := s
      obtain ⟨h3, h4⟩ := h2
      change none = es at h4
      subst h4
      exact ih h3 hwf ha hn (fun x hx => hcl x (by simp [hx])) (fun x hx => hg x (by simp [hx]))
        (fun x hx => hws x (by simp [hx])) hp
    · have h0 : kept o.rmGcodes [g] = [g] := by simp [kept, hk]
      have h1 : kept o.rmGcodes (g :: gs) = g :: kept o.rmGcodes gs := by simp [kept, hk]
      rw [h1] at hp ⊢
      rw [h0]
      have h1 := writeOne_read { o with rmGcodes := [] } rfl h ha hn [g] [] c none (fun x hx => hcl x (by simp_all))
        (fun x hx => hg x (by simp_all))
        (by simp [Ordered]) (fun x hx => hws x (by simp_all)) (by simp) (by simp)
        (fun w hw => hp w (by
          rw [List.append_nil] at hw
          rw [List.flatMap_cons]
          simp only [List.flatMap_cons, List.flatMap_nil, List.append_nil] at hw
          exact List.mem_append.2 (.inl hw))) (single_conflict g) hc (by simp) (.inl rfl)
      rw [processGcodes_sorted, execSort_single, processAll_one] at h1
      unfold processAll
      have hwf' : (a.process g).1.WF := (path_call a hwf (.gcode g) (hg g (by simp))).wf hwf
      have hok' : ModeOK (a.process g).1.mode := kept_ok.process a hwf g (hg g (by simp)) trivial ha
      have hn' : ModeAll Named (a.process g).1.mode := kept_named.process a hwf g (hg g (by simp)) (hcl g (by simp)) hn
      generalize a.process g = r at *
      generalize readLines b _ = s at *
      obtain ⟨r, er⟩ := r
      obtain ⟨s, es⟩ := s
      obtain ⟨h2, h3⟩ := h1
      simp only at h2 h3
      subst h3
      cases er with
      | some e => exact ⟨h2, rfl⟩
      | none =>
        exact ih h2 hwf' hok' hn' (fun x hx => hcl x (by simp [hx])) (fun x hx => hg x (by simp [hx]))
          (fun x hx => hws x (by simp [hx])) (fun w hw => hp w (by rw [List.flatMap_cons]; exact List.mem_append.2 (.inr hw)))

/-- What `write` prints for a line reads back as what is kept of it. -/
theorem write_kept (o : NormOpts) {a b : Machine} (h : Alike a b) (hwf : a.WF)
    (ha : ModeOK a.mode) (hn : ModeAll Named a.mode) (l : Line) (gs : List GCode) (mp : List Word)
    (hl : TidyKept o l gs mp) (hfull : o.full = true → mp = [])
    (hcl : ∀ g ∈ gs, wordClass g.word = some g.cls)
    (hg : ∀ g ∈ gs, GOK g) (ho : Ordered gs) (hws : ∀ g ∈ gs, g.ws = false)
    (hm : ∀ w ∈ mp, wordClass w = none)
    (hc : CommentOK l.macro? l.comment)
    (hmac : ∀ m', l.macro? = some m' → ∃ r, m' = '%' :: r ∧ '\n' ∉ r) :
    ∃ ls, o.write gs mp l.comment l.macro? = .ok ls ∧
      AlikeRes (a.processGcodes (kept o.rmGcodes gs) mp) (readLines b ls) ∧ ∀ t ∈ ls, Unlisted o.rmGcodes t := by
  have hc' : CommentOK l.macro? (if o.rmComments then none else l.comment) := by
    split_ifs
    · trivial
    · exact hc
  have hcm : l.macro? = none ∨ ∀ t, (if o.rmComments then none else l.comment) = some (.semicolon t) → t = [] := by
    rcases hl.comment with h | h | h
    · right; rw [if_pos h]; intro t ht; cases ht
    · exact .inl h
    · right
      intro t ht
      split_ifs at ht
      · exact h t ht
  unfold NormOpts.write
  rw [if_neg (by rintro ⟨h1, h2⟩; exact h2 (hfull h1))]
  by_cases hs : o.singles = true ∧ 1 < gs.length
  · rw [if_pos hs]
    have hmp := hl.single hs.1 hs.2
    subst hmp
    rw [processGcodes_sorted, kept_sort]
    have hst := (execSort_stable gs).1
    have hpl : ∀ w ∈ (kept o.rmGcodes (execSort gs)).flatMap (fun g => g.word :: g.params), PlainWord w := by
      intro w hw
      apply hl.plain w
      rw [List.append_nil]
      exact ((hst.filter _).flatMap_right _).mem_iff.1 hw
    refine ⟨_, rfl, ?_, ?_⟩
    swap
    · intro t ht
      obtain ⟨g, hgm, ht⟩ := List.mem_flatMap.1 ht
      have hgm' := hst.mem_iff.1 hgm
      have hone : kept o.rmGcodes [g] = [] ∨ kept o.rmGcodes [g] = [g] ∧ g.word ∉ o.rmGcodes := by
        unfold kept
        by_cases h : g.word ∈ o.rmGcodes <;> simp [h]
      refine writeOne_unlisted o [g] [] l.comment none ?_ ?_ (by simp [Ordered]) ?_ (by simp) (by simp) ?_
        ?_ (commentOK_none hc' hcm) (by simp) (.inl rfl) t ht
      · intro x hx; rw [List.mem_singleton] at hx; subst hx; exact hcl x hgm'
      · intro x hx; rw [List.mem_singleton] at hx; subst hx; exact hg x hgm'
      · intro x hx; rw [List.mem_singleton] at hx; subst hx; exact hws x hgm'
      · intro w hw
        rcases hone with h | ⟨h, hn⟩ <;> rw [h] at hw
        · simp at hw
        · refine hpl w (List.mem_flatMap.2 ⟨g, List.mem_filter.2 ⟨hgm, by simpa using hn⟩, ?_⟩)
          simpa using hw
      · rcases hone with h | ⟨h, -⟩ <;> rw [h] <;> exact short_conflict _ (by simp)
    refine singles_kept o l.comment (commentOK_none hc' hcm) (execSort gs) h hwf ha hn
      (fun g hg' => hcl g (hst.mem_iff.1 hg')) (fun g hg' => hg g (hst.mem_iff.1 hg'))
      (fun g hg' => hws g (hst.mem_iff.1 hg')) hpl
  · rw [if_neg hs]
    have hnc : ¬ Conflict (kept o.rmGcodes gs) := by
      by_cases h1 : o.singles = true
      · refine short_conflict _ ?_
        by_contra h2
        have := List.length_filter_le (fun g => decide (g.word ∉ o.rmGcodes)) gs
        unfold kept at h2
        exact hs ⟨h1, by omega⟩
      · exact hl.conflict (by simpa using h1)
    refine ⟨_, rfl, ?_, writeOne_unlisted o gs mp l.comment l.macro? hcl hg ho hws hm hl.later hl.plain hnc hc' hmac hcm⟩
    rw [writeOne_kept]
    exact writeOne_read { o with rmGcodes := [] } rfl h ha hn (kept o.rmGcodes gs) mp l.comment l.macro?
      (fun g hg' => hcl g (kept_mem hg').1) (fun g hg' => hg g (kept_mem hg').1) (ho.filter _)
      (fun g hg' => hws g (kept_mem hg').1) hm hl.later hl.plain hnc hc' hmac hcm

/-- What a well-formed machine stays like while it executes gcodes. -/
theorem processAll_keeps (gs : List GCode) : ∀ (b : Machine), b.WF → ModeOK b.mode → ModeAll Named b.mode →
    (∀ g ∈ gs, wordClass g.word = some g.cls) → (∀ g ∈ gs, GOK g) →
    (b.processAll gs).1.WF ∧ ModeOK (b.processAll gs).1.mode ∧ ModeAll Named (b.processAll gs).1.mode := by
  induction gs with
  | nil => exact fun b h1 h2 h3 _ _ => ⟨h1, h2, h3⟩
  | cons g gs ih =>
    intro b h1 h2 h3 hcl hg
    have w1 : (b.process g).1.WF := (path_call b h1 (.gcode g) (hg g (by simp))).wf h1
    have w2 : ModeOK (b.process g).1.mode := kept_ok.process b h1 g (hg g (by simp)) trivial h2
    have w3 : ModeAll Named (b.process g).1.mode := kept_named.process b h1 g (hg g (by simp)) (hcl g (by simp)) h3
    unfold processAll andThen
    generalize b.process g = r at *
    obtain ⟨r, - | e⟩ := r
    · exact ih r w1 w2 w3 (fun x hx => hcl x (by simp [hx])) (fun x hx => hg x (by simp [hx]))
    · exact ⟨w1, w2, w3⟩

/-- One line: what is printed for it, and what the script's machine does. -/
theorem line_kept (o : NormOpts) (he : o.cannedExpand = false) (hi : o.rmInvalid = false)
    (fuel : ℕ) {a b b' : Machine} (hok : ModeOK a.mode) (hna : ModeAll Named a.mode)
    (h : Alike b b') (hwf : b.WF) (hb : ModeOK b.mode) (hn : ModeAll Named b.mode)
    (t : List Char) (l : Line) (hl : Line.ofText t = .ok l) (gs : List GCode) (hgs : a.blockModalGcodes l.block = .ok gs)
    (htd : if o.full then TidyKept o l gs [] else TidyKept o l l.block.gcodes l.block.modalParams)
    (a' : Machine) (hp : a.processStr t = (a', none)) :
    ∃ ls, o.line fuel a t = ⟨ls, a', .done⟩ ∧
      AlikeRes (if o.full then b.processAll (kept o.rmGcodes gs)
        else b.processGcodes (kept o.rmGcodes l.block.gcodes) l.block.modalParams) (readLines b' ls) ∧
      ∀ t ∈ ls, Unlisted o.rmGcodes t := by
  obtain ⟨e1, e2, e3, e4, e5, e6⟩ := effective_ok hl hok hna hgs
  obtain ⟨c1, c2⟩ := line_comment_ok hl
  have hbl := line_block_ok hl
  have key : ∃ ls, (if o.full = true then o.write gs [] l.comment l.macro?
      else o.write l.block.gcodes l.block.modalParams l.comment l.macro?) = .ok ls ∧
      AlikeRes (if o.full then b.processAll (kept o.rmGcodes gs)
        else b.processGcodes (kept o.rmGcodes l.block.gcodes) l.block.modalParams) (readLines b' ls) ∧
      ∀ t ∈ ls, Unlisted o.rmGcodes t := by
    by_cases hf : o.full = true
    · rw [if_pos hf] at htd ⊢
      rw [if_pos hf]
      have := write_kept o h hwf hb hn l gs [] htd (fun _ => rfl) e1 e2 e3 e4 (by simp) c1 c2
      rw [processGcodes_sorted, kept_sort, e5] at this
      exact this
    · rw [if_neg hf] at htd ⊢
      rw [if_neg hf]
      exact write_kept o h hwf hb hn l _ _ htd (fun h => absurd h hf) hbl.cls hbl.ok hbl.ordered hbl.ws hbl.unused c1 c2
  obtain ⟨ls, hw, hal⟩ := key
  refine ⟨ls, ?_, hal⟩
  unfold processStr at hp
  rw [hl] at hp
  simp only at hp
  unfold NormOpts.line
  rw [hl]
  simp only [hi, Bool.false_eq_true, if_false]
  rw [hgs]
  simp only [he, Bool.false_and, Bool.false_eq_true, if_false]
  unfold NormOpts.plainLine
  rw [hw]
  unfold NormRes.put NormRes.andThen
  simp only
  rw [hp]
  simp [NormRes.ofM]

/-- A line that is executed has been read, and its gcodes found. -/
theorem processStr_effective {a a' : Machine} {t : List Char} (hp : a.processStr t = (a', none)) :
    ∃ l gs, Line.ofText t = .ok l ∧ a.blockModalGcodes l.block = .ok gs := by
  unfold processStr at hp
  cases hl : Line.ofText t with
  | error e => rw [hl] at hp; cases hp
  | ok l =>
    rw [hl] at hp
    simp only at hp
    unfold processBlock processGcodes at hp
    unfold blockModalGcodes
    cases hm : a.modalGcode l.block.modalParams with
    | error e => rw [hm] at hp; cases hp
    | ok og => exact ⟨l, _, rfl, by rw [hm]⟩

/-- **C77**: with `--full`, the printed program does what the input does with all gcodes with a listed word left
out of it, and nothing else left out. -/
theorem C77_full (o : NormOpts) (hf : o.full = true) (he : o.cannedExpand = false) (hi : o.rmInvalid = false)
    (fuel : ℕ) (m : Machine) (hwf : m.WF) (hok : ModeOK m.mode) (hn : ModeAll Named m.mode)
    (ts : List (List Char)) (a : Machine) (hts : readLines m ts = (a, none)) (htd : LinesTidyKept o m ts) :
    ∃ ls, o.loop fuel m ts = ⟨ls, a, .done⟩ ∧ AlikeRes (runWithout o.rmGcodes m m ts) (readLines m ls) ∧
      ∀ t ∈ ls, Unlisted o.rmGcodes t := by
  suffices key : ∀ (ts : List (List Char)) (m b b' : Machine), m.WF → ModeOK m.mode → ModeAll Named m.mode →
      Alike b b' → b.WF → ModeOK b.mode → ModeAll Named b.mode →
      readLines m ts = (a, none) → LinesTidyKept o m ts →
      ∃ ls, o.loop fuel m ts = ⟨ls, a, .done⟩ ∧ AlikeRes (runWithout o.rmGcodes m b ts) (readLines b' ls) ∧
        ∀ t ∈ ls, Unlisted o.rmGcodes t from
    key ts m m m hwf hok hn (.refl m) hwf hok hn hts htd
  intro ts
  induction ts with
  | nil =>
    intro m b b' _ _ _ h _ _ _ hts _
    cases hts
    exact ⟨[], rfl, ⟨h, rfl⟩, by simp⟩
  | cons t ts ih =>
    intro m b b' hwf hok hn h k1 k2 k3 hts htd
    unfold readLines andThen at hts
    obtain ⟨ht1, ht2⟩ := htd
    cases hp : m.processStr t with
    | mk m' e =>
      rw [hp] at hts ht2
      cases e with
      | some e => cases hts
      | none =>
        simp only at hts ht2
        obtain ⟨l, gs, hl, hgs⟩ := processStr_effective hp
        obtain ⟨ls, h1, h2, hu⟩ := line_kept o he hi fuel hok hn h k1 k2 k3 t l hl gs hgs (ht1 l gs hl hgs) m' hp
        rw [if_pos hf] at h2
        have hcall : (Call.str t).OK m.axes m.absPos.unit := trivial
        have hm' : ((Call.str t).run m).1 = m' := by simp [Call.run, hp]
        have w1 := (path_call m hwf (.str t) hcall).wf hwf
        have w2 := kept_ok.call m hwf (.str t) hcall trivial hok
        have w3 := kept_named.call m hwf (.str t) hcall trivial hn
        rw [hm'] at w1 w2 w3
        obtain ⟨e1, e2, -⟩ := effective_ok hl hok hn hgs
        obtain ⟨v1, v2, v3⟩ := processAll_keeps (kept o.rmGcodes gs) b k1 k2 k3 (fun g hg => e1 g (kept_mem hg).1)
          (fun g hg => e2 g (kept_mem hg).1)
        have hall : ∀ B B' : Machine, Alike B B' → B.WF → ModeOK B.mode → ModeAll Named B.mode →
            ∃ ls', o.loop fuel m' ts = ⟨ls', a, .done⟩ ∧ AlikeRes (runWithout o.rmGcodes m' B ts) (readLines B' ls') ∧
              ∀ t ∈ ls', Unlisted o.rmGcodes t :=
          fun B B' hB q1 q2 q3 => ih m' B B' w1 w2 w3 hB q1 q2 q3 hts ht2
        obtain ⟨ls', hlp, -, hu'⟩ := hall m' m' (.refl m') w1 w2 w3
        refine ⟨ls ++ ls', ?_, ?_, fun t ht => (List.mem_append.1 ht).elim (hu t) (hu' t)⟩
        · unfold NormOpts.loop
          rw [h1]
          unfold NormRes.andThen
          simp only [hlp]
        · unfold runWithout
          rw [hl]
          simp only [hgs, hp]
          rw [readLines_append]
          generalize b.processAll (kept o.rmGcodes gs) = r at *
          generalize readLines b' ls = s at *
          obtain ⟨r, er⟩ := r
          obtain ⟨s, es⟩ := s
          obtain ⟨h3, h4⟩ := h2
          simp only at h3 h4
          subst h4
          cases er with
          | some e => exact ⟨h3, rfl⟩
          | none =>
            obtain ⟨ls'', hlp', hal, -⟩ := hall r s h3 v1 v2 v3
            rw [hlp] at hlp'
            cases hlp'
            exact hal

/-- Without `--full`, each line does what is kept of its own gcodes, with the left-over words completed by the
motion mode that is then active. -/
theorem C77_plain (o : NormOpts) (hf : o.full = false) (he : o.cannedExpand = false) (hi : o.rmInvalid = false)
    (fuel : ℕ) (m : Machine) (hwf : m.WF) (hok : ModeOK m.mode) (hn : ModeAll Named m.mode)
    (ts : List (List Char)) (a : Machine) (hts : readLines m ts = (a, none)) (htd : LinesTidyKept o m ts) :
    ∃ ls, o.loop fuel m ts = ⟨ls, a, .done⟩ ∧ AlikeRes (blocksWithout o.rmGcodes m ts) (readLines m ls) ∧
      ∀ t ∈ ls, Unlisted o.rmGcodes t := by
  suffices key : ∀ (ts : List (List Char)) (m b b' : Machine), m.WF → ModeOK m.mode → ModeAll Named m.mode →
      Alike b b' → b.WF → ModeOK b.mode → ModeAll Named b.mode →
      readLines m ts = (a, none) → LinesTidyKept o m ts →
      ∃ ls, o.loop fuel m ts = ⟨ls, a, .done⟩ ∧ AlikeRes (blocksWithout o.rmGcodes b ts) (readLines b' ls) ∧
        ∀ t ∈ ls, Unlisted o.rmGcodes t from
    key ts m m m hwf hok hn (.refl m) hwf hok hn hts htd
  intro ts
  induction ts with
  | nil =>
    intro m b b' _ _ _ h _ _ _ hts _
    cases hts
    exact ⟨[], rfl, ⟨h, rfl⟩, by simp⟩
  | cons t ts ih =>
    intro m b b' hwf hok hn h k1 k2 k3 hts htd
    unfold readLines andThen at hts
    obtain ⟨ht1, ht2⟩ := htd
    cases hp : m.processStr t with
    | mk m' e =>
      rw [hp] at hts ht2
      cases e with
      | some e => cases hts
      | none =>
        simp only at hts ht2
        obtain ⟨l, gs, hl, hgs⟩ := processStr_effective hp
        obtain ⟨ls, h1, h2, hu⟩ := line_kept o he hi fuel hok hn h k1 k2 k3 t l hl gs hgs (ht1 l gs hl hgs) m' hp
        rw [if_neg (by simp [hf])] at h2
        have hcall : (Call.str t).OK m.axes m.absPos.unit := trivial
        have hm' : ((Call.str t).run m).1 = m' := by simp [Call.run, hp]
        have w1 := (path_call m hwf (.str t) hcall).wf hwf
        have w2 := kept_ok.call m hwf (.str t) hcall trivial hok
        have w3 := kept_named.call m hwf (.str t) hcall trivial hn
        rw [hm'] at w1 w2 w3
        have hbl := line_block_ok hl
        have hcb : (Call.gcodes (kept o.rmGcodes l.block.gcodes) l.block.modalParams).OK b.axes b.absPos.unit :=
          fun g hg => hbl.ok g (kept_mem hg).1
        have v1 := (path_call b k1 _ hcb).wf k1
        have v2 := kept_ok.call b k1 _ hcb (fun _ _ => trivial) k2
        have v3 := kept_named.call b k1 _ hcb (fun g hg => hbl.cls g (kept_mem hg).1) k3
        simp only [Call.run] at v1 v2 v3
        have hall : ∀ B B' : Machine, Alike B B' → B.WF → ModeOK B.mode → ModeAll Named B.mode →
            ∃ ls', o.loop fuel m' ts = ⟨ls', a, .done⟩ ∧ AlikeRes (blocksWithout o.rmGcodes B ts) (readLines B' ls') ∧
              ∀ t ∈ ls', Unlisted o.rmGcodes t :=
          fun B B' hB q1 q2 q3 => ih m' B B' w1 w2 w3 hB q1 q2 q3 hts ht2
        obtain ⟨ls', hlp, -, hu'⟩ := hall m' m' (.refl m') w1 w2 w3
        refine ⟨ls ++ ls', ?_, ?_, fun t ht => (List.mem_append.1 ht).elim (hu t) (hu' t)⟩
        · unfold NormOpts.loop
          rw [h1]
          unfold NormRes.andThen
          simp only [hlp]
        · unfold blocksWithout
          rw [hl]
          simp only
          rw [readLines_append]
          generalize b.processGcodes (kept o.rmGcodes l.block.gcodes) l.block.modalParams = r at *
          generalize readLines b' ls = s at *
          obtain ⟨r, er⟩ := r
          obtain ⟨s, es⟩ := s
          obtain ⟨h3, h4⟩ := h2
          simp only at h3 h4
          subst h4
          cases er with
          | some e => exact ⟨h3, rfl⟩
          | none =>
            obtain ⟨ls'', hlp', hal, -⟩ := hall r s h3 v1 v2 v3
            rw [hlp] at hlp'
            cases hlp'
            exact hal

theorem kept_all {rm : List Word} {gs : List GCode} (h : ∀ g ∈ gs, g.word ∉ rm) : kept rm gs = gs :=
  List.filter_eq_self.2 (fun g hg => by simpa using h g hg)

theorem write_unlisted (o : NormOpts) (gs : List GCode) (mp : List Word) (c : Option Comment) (mac : Option (List Char))
    (h : ∀ g ∈ gs, g.word ∉ o.rmGcodes) :
    o.write gs mp c mac = ({ o with rmGcodes := [] } : NormOpts).write gs mp c mac := by
  unfold NormOpts.write
  simp only
  have h1 : o.writeOne gs mp c mac = ({ o with rmGcodes := [] } : NormOpts).writeOne gs mp c mac := by
    rw [writeOne_kept, kept_all h]
  have h2 : (execSort gs).flatMap (fun g => o.writeOne [g] [] c none) =
      (execSort gs).flatMap (fun g => ({ o with rmGcodes := [] } : NormOpts).writeOne [g] [] c none) := by
    refine List.flatMap_congr (fun g hg => ?_)
    rw [writeOne_kept, kept_all]
    intro x hx
    rw [List.mem_singleton] at hx
    subst hx
    exact h x ((execSort_stable gs).1.mem_iff.1 hg)
  rw [h1, h2]

theorem line_plain (o : NormOpts) (he : o.cannedExpand = false) (hi : o.rmInvalid = false) (fuel : ℕ) (m : Machine)
    (t : List Char) (l : Line) (hl : Line.ofText t = .ok l) (gs : List GCode) (hgs : m.blockModalGcodes l.block = .ok gs) :
    o.line fuel m t = o.plainLine m l gs := by
  unfold NormOpts.line
  rw [hl]
  simp only [hi, Bool.false_eq_true, if_false]
  rw [hgs]
  simp only [he, Bool.false_and, Bool.false_eq_true, if_false]

theorem line_error (o : NormOpts) (hi : o.rmInvalid = false) (fuel : ℕ) (m : Machine) (t : List Char)
    (h : ¬ ∃ l gs, Line.ofText t = .ok l ∧ m.blockModalGcodes l.block = .ok gs) :
    ∃ e, o.line fuel m t = ⟨[], m, .raised e⟩ ∧ ∀ o' : NormOpts, o'.rmInvalid = false → o'.line fuel m t = ⟨[], m, .raised e⟩ := by
  cases hl : Line.ofText t with
  | error e =>
    refine ⟨e, ?_, fun o' _ => ?_⟩ <;> unfold NormOpts.line <;> rw [hl]
  | ok l =>
    cases hgs : m.blockModalGcodes l.block with
    | ok gs => exact absurd ⟨l, gs, hl, hgs⟩ h
    | error e =>
      have : ∀ o' : NormOpts, o'.rmInvalid = false → o'.line fuel m t = ⟨[], m, .raised e⟩ := by
        intro o' ho'
        unfold NormOpts.line
        rw [hl]
        simp only [ho', Bool.false_eq_true, if_false]
        rw [hgs]
      exact ⟨e, this o hi, this⟩

theorem plainLine_m (o : NormOpts) (m : Machine) (l : Line) (gs : List GCode) (h : (o.plainLine m l gs).status = .done) :
    (o.plainLine m l gs).m = (m.processBlock l.block).1 := by
  unfold NormOpts.plainLine at h ⊢
  generalize (if o.full = true then o.write gs [] l.comment l.macro?
    else o.write l.block.gcodes l.block.modalParams l.comment l.macro?) = r at *
  cases r with
  | error e => cases h
  | ok ls =>
    unfold NormRes.put NormRes.andThen NormRes.ofM
    simp only
    rcases m.processBlock l.block with ⟨m', _ | e⟩ <;> rfl

/-- A program without listed gcodes is printed as without the option. -/
theorem C77_unlisted (o : NormOpts) (he : o.cannedExpand = false) (hi : o.rmInvalid = false) (fuel : ℕ)
    (ts : List (List Char)) : ∀ (m : Machine), NoneListed o.rmGcodes m ts →
    o.loop fuel m ts = ({ o with rmGcodes := [] } : NormOpts).loop fuel m ts := by
  induction ts with
  | nil => exact fun m _ => rfl
  | cons t ts ih =>
    intro m h
    unfold NormOpts.loop
    by_cases hx : ∃ l gs, Line.ofText t = .ok l ∧ m.blockModalGcodes l.block = .ok gs
    · obtain ⟨l, gs, hl, hgs⟩ := hx
      have hno := h.1 l gs hl hgs
      rw [line_plain o he hi fuel m t l hl gs hgs, line_plain { o with rmGcodes := [] } he hi fuel m t l hl gs hgs]
      have hw : o.plainLine m l gs = ({ o with rmGcodes := [] } : NormOpts).plainLine m l gs := by
        unfold NormOpts.plainLine
        simp only
        rw [write_unlisted o gs [] _ _ hno, write_unlisted o l.block.gcodes]
        intro g hg
        refine hno g ?_
        unfold blockModalGcodes at hgs
        split at hgs
        · cases hgs
        · cases hgs
          exact (execSort_stable _).1.mem_iff.2 (List.mem_append.2 (.inl hg))
      rw [← hw]
      unfold NormRes.andThen
      cases hs : (o.plainLine m l gs).status with
      | done =>
        have hm : (o.plainLine m l gs).m = (m.processStr t).1 := by
          rw [plainLine_m o m l gs hs]
          unfold processStr
          rw [hl]
        simp only
        rw [hm, ih _ h.2]
      | raised e => rfl
      | running => rfl
    · obtain ⟨e, h1, h2⟩ := line_error o hi fuel m t hx
      rw [h1, h2 { o with rmGcodes := [] } hi]
      rfl

/-! ## Cases -/

def tidyKeptB (o : NormOpts) (l : Line) (gs : List GCode) (mp : List Word) : Bool :=
  ((kept o.rmGcodes gs).flatMap (fun g => g.word :: g.params) ++ mp).all plainB &&
  (!o.singles || decide (gs.length ≤ 1) || decide (mp = [])) &&
  (o.singles || (Block.assertLoop [] [] (kept o.rmGcodes gs)).isOk) &&
  (kept o.rmGcodes gs).all (fun g => mp.all (fun w => decide (w.letter ∉ g.cls.params))) &&
  decide (l.macro? = none)

theorem tidyKeptB_sound {o : NormOpts} {l : Line} {gs : List GCode} {mp : List Word} (h : tidyKeptB o l gs mp = true) :
    TidyKept o l gs mp := by
  unfold tidyKeptB at h
  simp only [Bool.and_eq_true, Bool.or_eq_true, Bool.not_eq_true', decide_eq_true_eq] at h
  obtain ⟨⟨⟨⟨h1, h2⟩, h3⟩, h4⟩, h5⟩ := h
  have ht : tidyB { o with singles := false } l (kept o.rmGcodes gs) mp = true ∨ o.singles = true := by
    rcases h3 with h3 | h3
    · exact .inr h3
    · left
      unfold tidyB
      simp only [Bool.and_eq_true, Bool.or_eq_true, Bool.not_eq_true', decide_eq_true_eq]
      exact ⟨⟨⟨⟨h1, .inl (.inl trivial)⟩, .inr h3⟩, h4⟩, h5⟩
  refine ⟨fun w hw => plainB_sound (List.all_eq_true.1 h1 w hw), ?_, ?_, ?_, .inr (.inl h5)⟩
  · intro hs hlen
    rcases h2 with (h2 | h2) | h2
    · rw [hs] at h2; cases h2
    · omega
    · exact h2
  · intro hs
    rcases ht with ht | ht
    · exact (tidyB_sound ht).conflict rfl
    · rw [hs] at ht; cases ht
  · intro g hg w hw
    exact of_decide_eq_true (List.all_eq_true.1 (List.all_eq_true.1 h4 g hg) w hw)

def linesTidyKeptB (o : NormOpts) (m : Machine) : List (List Char) → Bool
  | [] => true
  | t :: ts =>
    (match Line.ofText t with
      | .error _ => true
      | .ok l =>
        match m.blockModalGcodes l.block with
        | .error _ => true
        | .ok gs => if o.full then tidyKeptB o l gs [] else tidyKeptB o l l.block.gcodes l.block.modalParams) &&
    linesTidyKeptB o (m.processStr t).1 ts

theorem linesTidyKeptB_sound {o : NormOpts} (ts : List (List Char)) :
    ∀ {m : Machine}, linesTidyKeptB o m ts = true → LinesTidyKept o m ts := by
  induction ts with
  | nil => exact fun _ => trivial
  | cons t ts ih =>
    intro m h
    unfold linesTidyKeptB at h
    rw [Bool.and_eq_true] at h
    refine ⟨?_, ih h.2⟩
    intro l gs hl hgs
    have h1 := h.1
    rw [hl] at h1
    simp only [hgs] at h1
    split_ifs at h1 ⊢ <;> exact tidyKeptB_sound h1

/-- Without the coolant and the feed rate. -/
def removeSample : NormOpts := { full := true, rmGcodes := [⟨'M', .num 8⟩, ⟨'M', .num 9⟩, ⟨'F', .num 100⟩] }

example : (removeSample.loop 0 newNull normSample).out =
    ["G17 G21 G90", "G01 X1 Z5 (start)", "G01 Y2.5 ; modal", "", "G81 R2 X1 Y2 Z-3", "G81 R2 X5 Y2 Z-3", "G80"].map String.toList := by
  decide +kernel

/-- The theorem applies to it. -/
example : ∃ ls, removeSample.loop 0 newNull normSample = ⟨ls, (readLines newNull normSample).1, .done⟩ ∧
    AlikeRes (runWithout removeSample.rmGcodes newNull newNull normSample) (readLines newNull ls) ∧
    ∀ t ∈ ls, Unlisted removeSample.rmGcodes t :=
  C77_full removeSample rfl rfl rfl 0 newNull (reader_null xyz).wf (reader_null xyz).ok (reader_null xyz).named
    normSample _ (Prod.ext rfl (by decide +kernel)) (linesTidyKeptB_sound _ (by decide +kernel))

example : ∃ ls, ({ removeSample with full := false, singles := true } : NormOpts).loop 0 newNull normSample =
      ⟨ls, (readLines newNull normSample).1, .done⟩ ∧
    AlikeRes (blocksWithout removeSample.rmGcodes newNull normSample) (readLines newNull ls) ∧
    ∀ t ∈ ls, Unlisted removeSample.rmGcodes t :=
  C77_plain { removeSample with full := false, singles := true } rfl rfl rfl 0 newNull (reader_null xyz).wf
    (reader_null xyz).ok (reader_null xyz).named
    normSample _ (Prod.ext rfl (by decide +kernel)) (linesTidyKeptB_sound _ (by decide +kernel))

/-- Without `--full`, removing `G1` does not remove the moves that later lines make in its mode: they become
moves in the mode before, here a rapid move where the input has a removed feed move. -/
theorem C77_modal_limit :
    ∃ ts : List (List Char), (readLines newNull ts).2 = none ∧
      (runWithout [⟨'G', .num 1⟩] newNull newNull ts).2 = none ∧
      (runWithout [⟨'G', .num 1⟩] newNull newNull ts).1.absPos.val .Y = 0 ∧
      (readLines newNull (({ rmGcodes := [⟨'G', .num 1⟩] } : NormOpts).loop 0 newNull ts).out).2 = none ∧
      (readLines newNull (({ rmGcodes := [⟨'G', .num 1⟩] } : NormOpts).loop 0 newNull ts).out).1.absPos.val .Y = 5 ∧
      (readLines newNull (({ rmGcodes := [⟨'G', .num 1⟩] } : NormOpts).loop 0 newNull ts).out).1.mode.motion.map GCode.cls =
        some .rapidMove :=
  ⟨["G90 G0 X1", "G1 Y1", "Y5"].map String.toList, by decide +kernel⟩

end Pygcode
