import Verif.Props.NormArgs

/-!
# C80: no listed canned cycle is left by `pygcode-norm --canned_expand`
-/

namespace Pygcode
open Props Machine Spec

/-! ## Specification -/

/-- All listed words are words of canned cycles. -/
def OnlyCycles (cc : List Word) : Prop := ∀ w ∈ cc, ∃ c, wordClass w = some c ∧ c.isSub .cannedCycle = true

/-- At most one gcode with a listed word is executed for a line. -/
def OneListed (cc : List Word) (m : Machine) : List (List Char) → Prop
  | [] => True
  | t :: ts => (∀ l gs, Line.ofText t = .ok l → m.blockModalGcodes l.block = .ok gs →
      gs.countP (fun g => decide (g.word ∈ cc)) ≤ 1) ∧ OneListed cc (m.processStr t).1 ts

/-- The line is read, and none of its gcodes is a canned cycle. -/
def NoCycle (t : List Char) : Prop :=
  ∃ l, Line.ofText t = .ok l ∧ ∀ g ∈ l.block.gcodes, g.cls.isSub .cannedCycle = false

/-! ## Lines written -/

theorem kept_self {rm : List Word} {gs : List GCode} (h : ∀ g ∈ gs, g.word ∉ rm) : kept rm gs = gs :=
  List.filter_eq_self.2 (fun g hg => by simpa using h g hg)

theorem writeOne_none (o : NormOpts) (hr : o.rmGcodes = []) (cc : List Word) (gs : List GCode) (mp : List Word)
    (c : Option Comment) (mac : Option (List Char)) (h : ∀ g ∈ gs, g.word ∉ cc) :
    o.writeOne gs mp c mac = ({ o with rmGcodes := cc } : NormOpts).writeOne gs mp c mac := by
  rw [writeOne_kept o, writeOne_kept { o with rmGcodes := cc }]
  simp only
  rw [kept_self h, kept_self (by rw [hr]; simp)]

theorem write_none (o : NormOpts) (hr : o.rmGcodes = []) (cc : List Word) (gs : List GCode) (mp : List Word)
    (c : Option Comment) (mac : Option (List Char)) (h : ∀ g ∈ gs, g.word ∉ cc) :
    o.write gs mp c mac = ({ o with rmGcodes := cc } : NormOpts).write gs mp c mac := by
  unfold NormOpts.write
  simp only
  rw [writeOne_none o hr cc gs mp c mac h]
  have : (execSort gs).flatMap (fun g => o.writeOne [g] [] c none) =
      (execSort gs).flatMap (fun g => ({ o with rmGcodes := cc } : NormOpts).writeOne [g] [] c none) := by
    refine List.flatMap_congr fun g hg => ?_
    refine writeOne_none o hr cc [g] [] c none fun x hx => ?_
    rw [List.mem_singleton] at hx
    subst hx
    exact h x ((execSort_stable gs).1.mem_iff.1 hg)
  rw [this]

/-- What is written for a tidy line has none of the words, if the line has none. -/
theorem write_without (o : NormOpts) (hr : o.rmGcodes = []) (cc : List Word) {m : Machine} (hm : Sound m) (l : Line)
    (gs : List GCode) (mp : List Word) (h : ∀ g ∈ gs, g.word ∉ cc)
    (hl : Tidy o l gs mp) (hfull : o.full = true → mp = [])
    (hcl : ∀ g ∈ gs, wordClass g.word = some g.cls)
    (hg : ∀ g ∈ gs, GOK g) (ho : Ordered gs) (hws : ∀ g ∈ gs, g.ws = false)
    (hu : ∀ w ∈ mp, wordClass w = none)
    (hc : CommentOK l.macro? l.comment)
    (hmac : ∀ m', l.macro? = some m' → ∃ r, m' = '%' :: r ∧ '\n' ∉ r) (ls : List (List Char))
    (hls : o.write gs mp l.comment l.macro? = .ok ls) : ∀ t ∈ ls, Unlisted cc t := by
  have ht : TidyKept { o with rmGcodes := cc } l gs mp := by
    refine ⟨?_, hl.single, ?_, ?_, hl.comment⟩
    · show ∀ w ∈ (kept cc gs).flatMap (fun g => g.word :: g.params) ++ mp, PlainWord w
      rw [kept_self h]; exact hl.plain
    · show o.singles = false → ¬ Conflict (kept cc gs)
      rw [kept_self h]; exact hl.conflict
    · show ∀ g ∈ kept cc gs, ∀ w ∈ mp, w.letter ∉ g.cls.params
      rw [kept_self h]; exact hl.later
  obtain ⟨ls', h1, -, h3⟩ := write_kept { o with rmGcodes := cc } (Alike.refl m) hm.wf hm.ok hm.named l gs mp ht hfull
    hcl hg ho hws hu hc hmac
  rw [← write_none o hr cc gs mp _ _ h, hls] at h1
  cases h1
  exact h3

/-- A line with a comment only. -/
theorem comment_unlisted (o : NormOpts) (hr : o.rmGcodes = []) (cc : List Word) (c : Option Comment)
    (hc : CommentOK none (if o.rmComments then none else c)) (ls : List (List Char))
    (hls : o.write [] [] c = .ok ls) : ∀ t ∈ ls, Unlisted cc t := by
  unfold NormOpts.write at hls
  rw [if_neg (by simp), if_neg (by simp)] at hls
  cases hls
  rw [writeOne_none o hr cc [] [] c none (by simp)]
  exact writeOne_unlisted { o with rmGcodes := cc } [] [] c none (by simp) (by simp) (by simp [Ordered]) (by simp)
    (by simp) (by simp [kept]) (by simp [kept]) (short_conflict _ (by simp [kept])) hc (by simp) (.inl rfl)

/-- A line with a single gcode, its word blanked or not. -/
theorem written_unlisted (o : NormOpts) (hr : o.rmGcodes = []) (cc : List Word) (g : GCode) (h : PlainCode g)
    (hgr : g.cls.group = some 1) (hw : g.word ∉ cc) (b : Bool) :
    ∀ t ∈ o.writeOne [{ g with ws := b }] [] none none, Unlisted cc t := by
  have key : Unlisted cc (o.lineText [{ g with ws := b }] [] none none) := by
    cases b with
    | false =>
      have hg : ({ g with ws := false } : GCode) = g := by
        have := h.noWs
        obtain ⟨c, w, p, s⟩ := g
        simp only at this
        subst this; rfl
      rw [hg]
      have := lineText_reread o hr [g] [] none none (by simpa using (show wordClass g.word = some g.cls from h.named))
        (by simpa using h.gok) (List.pairwise_singleton _ _) (by simpa using h.noWs) (by simp) (by simp) (by
          intro w hw
          simp only [List.flatMap_cons, List.flatMap_nil, List.append_nil] at hw
          exact h.words w hw) (single_conflict g) (by split_ifs <;> trivial) (by simp) (.inl rfl)
      refine ⟨_, this, ?_⟩
      intro x hx
      simp only [List.map_cons, List.map_nil, List.mem_singleton] at hx
      subst hx
      exact hw
    | true =>
      by_cases hs : o.rmWhitespace = true
      · have e1 := blanked_text o hr g h hs
        rw [e1]
        have hmem : ∀ w ∈ g.sortedParams, w ∈ g.params := fun w hw => (sortedParams_perm g).mem_iff.1 hw
        have hpl : ∀ w ∈ g.sortedParams, PlainWord w := fun w hw => h.words w (List.mem_cons_of_mem _ (hmem w hw))
        have hnone : ∀ w ∈ g.sortedParams, wordClass w = none := fun w hw =>
          wordClass_param g.cls h.notCanned hgr w (h.gok.2 w (hmem w hw))
        have := lineText_reread o hr [] g.sortedParams none none (by simp) (by simp) (by simp [Ordered]) (by simp) hnone
          (by simp) (by simpa using hpl) (short_conflict [] (by simp)) (by split_ifs <;> trivial) (by simp) (.inl rfl)
        exact ⟨_, this, by simp⟩
      · have hne : { g with ws := true }.str ≠ [] := by simp [GCode.str, Word.str]
        have : o.lineText [{ g with ws := true }] [] none none = { g with ws := true }.str := by
          unfold NormOpts.lineText
          simp only [hr, if_true, hs, List.map_nil, List.map_cons, List.append_nil, joinWith, Bool.false_eq_true, if_false]
          rw [if_neg hne]
          simp [joinWith]
        rw [this]
        obtain ⟨l, h1, h2, -⟩ := line_blanked g h hgr
        exact ⟨l, h1, by rw [h2]; simp⟩
  intro t ht
  unfold NormOpts.writeOne at ht
  split_ifs at ht
  · simp at ht
  · rw [List.mem_singleton] at ht
    subst ht
    exact key

/-! ## Lines of the program -/

theorem done_andThen {r : NormRes} {f : Machine → NormRes} (h : (r.andThen f).status = .done) :
    r.status = .done ∧ (f r.m).status = .done ∧ (r.andThen f).out = r.out ++ (f r.m).out ∧
      (r.andThen f).m = (f r.m).m := by
  obtain ⟨out, m, s⟩ := r
  cases s <;> simp_all [NormRes.andThen]

theorem put_done {m : Machine} {r : Except Err (List (List Char))} (h : (NormRes.put m r).status = .done) :
    ∃ ls, r = .ok ls ∧ (NormRes.put m r).out = ls ∧ (NormRes.put m r).m = m := by
  cases r with
  | error e => cases h
  | ok ls => exact ⟨ls, rfl, rfl, rfl⟩

theorem ofM_out (x : MRes) : (NormRes.ofM x).out = [] := by
  obtain ⟨x, - | e⟩ := x <;> rfl

theorem putProcess_unlisted (o : NormOpts) (hr : o.rmGcodes = []) (cc : List Word) {m : Machine} (hm : Sound m)
    (gs : List GCode) (h : ∀ g ∈ gs, g.word ∉ cc) (hcl : ∀ g ∈ gs, wordClass g.word = some g.cls)
    (hg : ∀ g ∈ gs, GOK g) (ho : Ordered gs) (hws : ∀ g ∈ gs, g.ws = false)
    (hp : ∀ w ∈ gs.flatMap (fun x => x.word :: x.params), PlainWord w) (hc : o.singles = false → ¬ Conflict gs)
    (hd : (o.putProcess m gs).status = .done) : ∀ t ∈ (o.putProcess m gs).out, Unlisted cc t := by
  unfold NormOpts.putProcess at hd ⊢
  by_cases hz : gs = []
  · rw [if_pos hz]; simp
  rw [if_neg hz] at hd ⊢
  obtain ⟨h1, h2, h3, -⟩ := done_andThen hd
  rw [h3, ofM_out, List.append_nil]
  obtain ⟨ls, k1, k2, -⟩ := put_done h1
  rw [k2]
  exact write_without o hr cc hm ⟨⟨[], [], []⟩, none, none⟩ gs [] h
    ⟨by simpa using hp, fun _ _ => rfl, hc, by simp, .inr (.inl rfl)⟩ (fun _ => rfl) hcl hg ho hws (by simp)
    trivial (by simp) ls k1

theorem cycle_unlisted {cc : List Word} (hcc : OnlyCycles cc) {g : GCode} (hn : wordClass g.word = some g.cls)
    (h : g.cls.isSub .cannedCycle = false) : g.word ∉ cc := by
  intro hw
  obtain ⟨c, h1, h2⟩ := hcc _ hw
  rw [hn] at h1
  cases h1
  rw [h] at h2; cases h2

theorem omitted_mem {gs out : List GCode} (h : List.Forall₂ Omitted gs out) : ∀ x ∈ out, ∃ c ∈ gs, Omitted c x := by
  induction h with
  | nil => simp
  | cons h1 _ ih =>
    intro x hx
    rcases List.mem_cons.1 hx with rfl | hx
    · exact ⟨_, by simp, h1⟩
    · obtain ⟨c, hc, h⟩ := ih x hx
      exact ⟨c, by simp [hc], h⟩

/-- No move has a listed word. -/
def NotMoves (cc : List Word) : Prop := ∀ c : GCode, Named c → IsMove c → c.word ∉ cc

theorem OnlyCycles.notMoves {cc : List Word} (h : OnlyCycles cc) : NotMoves cc :=
  fun _ hn hm => cycle_unlisted h hn (isMove_params hm).1

theorem expansion_unlisted (o : NormOpts) (hr : o.rmGcodes = []) (fuel : ℕ) (cc : List Word) (hcc : NotMoves cc)
    {m : Machine} (hm : Sound m) (hax : xyz ⊆ m.axes) (g : GCode) (hok : GOK g)
    (hn : Named g) (hsub : g.cls.isSub .cannedCycle = true) (he : Expandable m g)
    (hmv : ∀ p, m.pos = .ok p → ∀ c ∈ (simplify fuel g p (planeOf m) m.incremental false m.axes).1,
      ∀ w ∈ c.word :: c.params, PlainWord w) (hd : (o.putExpansion fuel m g).status = .done) :
    ∀ t ∈ (o.putExpansion fuel m g).out, Unlisted cc t := by
  have hcy := cycle_named hn hsub
  unfold NormOpts.putExpansion at hd ⊢
  cases hp : m.pos with
  | error e => rw [hp] at hd; cases hd
  | ok p =>
    rw [hp] at hd
    simp only at hd ⊢
    rw [putAll_eq] at hd ⊢
    have hex : o.expansion fuel m p g = o.omitGen (simplify fuel g p (planeOf m) m.incremental false m.axes) := rfl
    rw [hex] at hd ⊢
    have hpl := hmv p hp
    cases hs : simplify fuel g p (planeOf m) m.incremental false m.axes with
    | mk out st =>
      rw [hs] at hd hpl
      simp only at hpl hd
      have hst : st = .done := by
        unfold NormOpts.omitGen at hd
        split_ifs at hd
        · exact hd
        · unfold Gen.andThen at hd
          cases hq : (omitFrom newNull out).2 with
          | done => rw [hq] at hd; exact hd
          | _ => rw [hq] at hd; simp only at hd; rw [hq] at hd; cases hd
      subst hst
      obtain ⟨m₁, m₂, h1, h2, h3, h4⟩ := expansion_near fuel hm hax g hcy hok he p hp (planeOf m) rfl out hs
      have hpc := h4.plainCode hpl
      have hgr : ∀ c ∈ out, c.cls.group = some 1 := fun c hc => (isMove_params (h4 c hc).2.2.1).2.1
      have hun : ∀ c ∈ out, c.word ∉ cc := fun c hc => hcc c (hpc c hc).named (h4 c hc).2.2.1
      have hout : ∃ out', (o.omitGen (out, .done)).1 = out' ∧ List.Forall₂ Omitted out out' := by
        unfold NormOpts.omitGen
        by_cases hf : o.full = true
        · rw [if_pos hf]
          exact ⟨out, rfl, List.forall₂_same.2 (fun g hg => ⟨rfl, rfl, rfl, fun _ => hgr g hg⟩)⟩
        · rw [if_neg hf]
          obtain ⟨out', e1, e2, e3⟩ := C47_same out hpc
          have e1' : omitFrom newNull out = (out', .done) := e1
          refine ⟨out', ?_, e2⟩
          rw [e1']
          simp [Gen.andThen]
      obtain ⟨out', e1, e2⟩ := hout
      rw [e1]
      intro t ht
      obtain ⟨x, hx, ht⟩ := List.mem_flatMap.1 ht
      obtain ⟨c, hc, c1, c2, c3, -⟩ := omitted_mem e2 x hx
      have hx' : x = { c with ws := x.ws } := by
        obtain ⟨a, w, p, s⟩ := x
        simp only at c1 c2 c3
        subst c1 c2 c3; rfl
      rw [hx'] at ht
      exact written_unlisted o hr cc c (hpc c hc) (hgr c hc) (hun c hc) _ t ht

theorem putExpansion_m (o : NormOpts) (fuel : ℕ) (m : Machine) (g : GCode) : (o.putExpansion fuel m g).m = m := by
  unfold NormOpts.putExpansion
  cases m.pos with
  | error e => rfl
  | ok p => simp only; rw [putAll_eq]

/-- The gcodes of a block are among those executed for it. -/
theorem block_effective {m : Machine} {b : Block} {gs : List GCode} (h : m.blockModalGcodes b = .ok gs) :
    ∀ g ∈ b.gcodes, g ∈ gs := by
  intro g hg
  unfold blockModalGcodes at h
  cases hm : m.modalGcode b.modalParams with
  | error e => rw [hm] at h; cases h
  | ok og =>
    rw [hm] at h
    cases h
    refine (execSort_stable _).1.mem_iff.2 ?_
    simp [hg]

theorem expandLine_unlisted (o : NormOpts) (hr : o.rmGcodes = []) (fuel : ℕ) {cc : List Word} (hcc : NotMoves cc)
    (hsc : ∀ w ∈ o.cannedCodes, w ∈ cc)
    {m : Machine} (hm : Sound m) (hax : xyz ⊆ m.axes) {t : List Char} {l : Line}
    (hl : Line.ofText t = .ok l) {gs : List GCode} (hgs : m.blockModalGcodes l.block = .ok gs)
    (hx : ∀ befores g afters, splitGcodes gs .cannedCycle true = (befores, [g], afters) →
      Expands o fuel m l befores g afters)
    (hone : gs.countP (fun g => decide (g.word ∈ cc)) ≤ 1)
    (hd : (o.expandLine fuel m gs l.comment).status = .done) :
    ∀ t ∈ (o.expandLine fuel m gs l.comment).out, Unlisted cc t := by
  obtain ⟨e1, e2, e3, e4, e5, e6⟩ := effective_ok hl hm.ok hm.named hgs
  have hso : gs.Pairwise (fun a b => a.cls.order ≤ b.cls.order) := by
    have := (execSort_stable gs).2.1
    rw [e5] at this
    exact this
  obtain ⟨c1, -⟩ := line_comment_ok hl
  unfold NormOpts.expandLine at hd ⊢
  split at hd
  swap
  · cases hd
  rename_i befores g afters hsp
  obtain ⟨ha, hsub⟩ := split_append hsp
  have hX := hx befores g afters hsp
  rw [e5] at ha
  have hmb : ∀ x ∈ befores, x ∈ gs := fun x hx => by rw [ha]; simp [hx]
  have hmg : g ∈ gs := by rw [ha]; simp
  have hma : ∀ x ∈ afters, x ∈ gs := fun x hx => by rw [ha]; simp [hx]
  have sb : befores.Sublist gs := by rw [ha]; exact List.sublist_append_left _ _
  have sa : afters.Sublist gs := by
    rw [ha]; exact (List.sublist_cons_self g afters).trans (List.sublist_append_right _ _)
  have hcount : befores.countP (fun g => decide (g.word ∈ cc)) = 0 ∧
      afters.countP (fun g => decide (g.word ∈ cc)) = 0 := by
    rw [ha, List.countP_append, List.countP_cons_of_pos (by simpa using hsc _ hX.asked)] at hone
    omega
  have hub : ∀ x ∈ befores, x.word ∉ cc := fun x hx => by
    simpa using List.countP_eq_zero.1 hcount.1 x hx
  have hua : ∀ x ∈ afters, x.word ∉ cc := fun x hx => by
    simpa using List.countP_eq_zero.1 hcount.2 x hx
  have f1 := putProcess_follows o hr (Behind.refl o.cannedCodes m) hm hm befores (fun x hx => e1 x (hmb x hx))
    (fun x hx => e2 x (hmb x hx)) (e3.sublist sb) (fun x hx => e4 x (hmb x hx)) (execSort_of_pairwise (hso.sublist sb))
    hX.plainB hX.conflictB
  obtain ⟨d1, d2, d3, -⟩ := done_andThen hd
  obtain ⟨g1, b₁, -, -, s1, -⟩ := f1 d1
  have u1 := putProcess_unlisted o hr cc hm befores hub (fun x hx => e1 x (hmb x hx))
    (fun x hx => e2 x (hmb x hx)) (e3.sublist sb) (fun x hx => e4 x (hmb x hx)) hX.plainB hX.conflictB d1
  have hm1 : (o.putProcess m befores).m = (m.processAll befores).1 := by rw [g1]
  have hax₁ : xyz ⊆ (m.processAll befores).1.axes := by
    have : (m.processAll befores).1.axes = m.axes :=
      congrArg Prod.fst (processAll_frozen (fun x hx => e2 x (hmb x hx)) hm.wf)
    rw [this]; exact hax
  rw [d3]
  rw [hm1] at d2 s1 ⊢
  have hhere := hX.here
  have hmv := hX.moves
  generalize (m.processAll befores).1 = m₁ at d2 s1 hax₁ hhere hmv ⊢
  clear hd d1 d3 f1 g1 hm1
  obtain ⟨d1, d2, d3, -⟩ := done_andThen d2
  obtain ⟨ls, w1, w2, w3⟩ := put_done d1
  have u2 := comment_unlisted o hr cc _ (by
      split_ifs
      · trivial
      · exact expanded_comment g hX.plainG) ls w1
  rw [d3]
  rw [w3] at d2 ⊢
  rw [w2]
  clear d1 d3 w1 w2 w3
  obtain ⟨d1, d2, d3, -⟩ := done_andThen d2
  have u3 := expansion_unlisted o hr fuel cc hcc s1 hax₁ g (e2 g hmg) (e1 g hmg) hsub hhere hmv d1
  rw [d3, putExpansion_m]
  rw [putExpansion_m] at d2
  clear d1 d3
  obtain ⟨d1, d2, d3, -⟩ := done_andThen d2
  rw [d3, ofM_out, List.nil_append]
  have s2 : Sound (NormRes.ofM (m₁.processGcodes [g] [])).m := by
    have := s1.process g (e2 g hmg) (e1 g hmg)
    rw [processGcodes_sorted, execSort_single, processAll_one]
    generalize m₁.process g = r at this
    obtain ⟨r, - | e⟩ := r <;> exact this
  generalize (NormRes.ofM (m₁.processGcodes [g] [])).m = m₂ at d2 s2 ⊢
  clear d1 d3
  obtain ⟨d1, d2, d3, -⟩ := done_andThen d2
  have u4 := putProcess_unlisted o hr cc s2 afters hua (fun x hx => e1 x (hma x hx))
    (fun x hx => e2 x (hma x hx)) (e3.sublist sa) (fun x hx => e4 x (hma x hx)) hX.plainA hX.conflictA d1
  rw [d3]
  generalize (o.putProcess m₂ afters).m = m₃ at d2 ⊢
  have u5 : ∀ t ∈ (if l.comment = none then (⟨[], m₃, .done⟩ : NormRes) else NormRes.put m₃ (o.write [] [] l.comment)).out,
      Unlisted cc t := by
    split_ifs at d2 ⊢ with hc
    · simp
    · obtain ⟨ls, w1, w2, -⟩ := put_done d2
      rw [w2]
      refine comment_unlisted o hr cc _ ?_ ls w1
      split_ifs with hrm
      · trivial
      · refine commentOK_none c1 ?_
        rcases hX.comment with hX | hX | hX
        · exact absurd hX hrm
        · exact .inl hX
        · exact .inr hX
  intro t ht
  simp only [List.mem_append] at ht
  rcases ht with ht | ht | ht | ht | ht
  · exact u1 t ht
  · exact u2 t ht
  · exact u3 t ht
  · exact u4 t ht
  · exact u5 t ht

theorem line_unlisted (o : NormOpts) (hr : o.rmGcodes = []) (hi : o.rmInvalid = false) (hce : o.cannedExpand = true)
    (fuel : ℕ) (hcc : OnlyCycles o.cannedCodes) {m : Machine} (hm : Sound m) (hax : xyz ⊆ m.axes) (t : List Char)
    (ht : LineExpands o fuel m t)
    (hone : ∀ l gs, Line.ofText t = .ok l → m.blockModalGcodes l.block = .ok gs →
      gs.countP (fun g => decide (g.word ∈ o.cannedCodes)) ≤ 1)
    (hd : (o.line fuel m t).status = .done) : ∀ s ∈ (o.line fuel m t).out, Unlisted o.cannedCodes s := by
  unfold NormOpts.line at hd ⊢
  cases hl : Line.ofText t with
  | error e => rw [hl] at hd; cases hd
  | ok l =>
    rw [hl] at hd
    simp only [hi, Bool.false_eq_true, if_false] at hd ⊢
    cases hgs : m.blockModalGcodes l.block with
    | error e => rw [hgs] at hd; cases hd
    | ok gs =>
      rw [hgs] at hd
      have hx := ht l gs hl hgs
      simp only at hd ⊢
      by_cases hany : (o.cannedExpand && gs.any (fun g => decide (g.word ∈ o.cannedCodes))) = true
      · rw [if_pos hany] at hx hd ⊢
        exact expandLine_unlisted o hr fuel hcc.notMoves (fun _ h => h) hm hax hl hgs hx (hone l gs hl hgs) hd
      · rw [if_neg hany] at hx hd ⊢
        have hno : ∀ g ∈ gs, g.word ∉ o.cannedCodes := by
          intro g hg hc
          apply hany
          rw [hce, Bool.true_and, List.any_eq_true]
          exact ⟨g, hg, by simpa using hc⟩
        obtain ⟨e1, e2, e3, e4, e5, e6⟩ := effective_ok hl hm.ok hm.named hgs
        obtain ⟨c1, c2⟩ := line_comment_ok hl
        have hbl := line_block_ok hl
        unfold NormOpts.plainLine at hd ⊢
        obtain ⟨d1, -, d3, -⟩ := done_andThen hd
        rw [d3, ofM_out, List.append_nil]
        obtain ⟨ls, w1, w2, -⟩ := put_done d1
        rw [w2]
        by_cases hf : o.full = true
        · rw [if_pos hf] at hx w1
          exact write_without o hr o.cannedCodes hm l gs [] hno hx (fun _ => rfl) e1 e2 e3 e4 (by simp) c1 c2 ls w1
        · rw [if_neg hf] at hx w1
          refine write_without o hr o.cannedCodes hm l _ _ ?_ hx (fun h => absurd h hf) hbl.cls hbl.ok hbl.ordered hbl.ws
            hbl.unused c1 c2 ls w1
          exact fun g hg => hno g (block_effective hgs g hg)

/-- **C80**: no printed line has a gcode with a word listed in `--canned_codes`, if only cycles are listed,
for every program that meets the conditions of **C67** and has at most one of them on a line. -/
theorem C80_listed (o : NormOpts) (hr : o.rmGcodes = []) (hi : o.rmInvalid = false) (hce : o.cannedExpand = true)
    (hcc : OnlyCycles o.cannedCodes) (fuel : ℕ) (ts : List (List Char)) : ∀ (m : Machine), Sound m →
    m.ignoreInvalid = false → xyz ⊆ m.axes → LinesExpand o fuel m ts → OneListed o.cannedCodes m ts →
    (o.loop fuel m ts).status = .done → ∀ t ∈ (o.loop fuel m ts).out, Unlisted o.cannedCodes t := by
  induction ts with
  | nil => intro m _ _ _ _ _ _ t ht; cases ht
  | cons t ts ih =>
    intro m hm hig hax hts hone hd
    unfold NormOpts.loop at hd ⊢
    obtain ⟨d1, d2, d3, -⟩ := done_andThen hd
    obtain ⟨f1, b, -, -, f2, -⟩ := line_follows o hr hi hce fuel (Behind.refl _ m) hm hm hig hax t hts.1 d1
    have hfr := str_frozen hm.wf t
    have hts' := hts.2
    have hone' := hone.2
    rw [f1] at hfr hts' hone'
    rw [d3]
    intro s hs
    rcases List.mem_append.1 hs with hs | hs
    · exact line_unlisted o hr hi hce fuel hcc hm hax t hts.1 hone.1 d1 s hs
    · refine ih _ f2 ((congrArg (fun x => x.2.1) hfr).trans hig) ?_ hts' hone' d2 s hs
      have : (o.line fuel m t).m.axes = m.axes := congrArg Prod.fst hfr
      rw [this]; exact hax

/-- **C80**: with the default list no canned cycle is left. -/
theorem C80_default (o : NormOpts) (hr : o.rmGcodes = []) (hi : o.rmInvalid = false) (hce : o.cannedExpand = true)
    (hdef : wordList defaultCanned = .ok o.cannedCodes) (fuel : ℕ) (ts : List (List Char)) (m : Machine) (hm : Sound m)
    (hig : m.ignoreInvalid = false) (hax : xyz ⊆ m.axes) (hts : LinesExpand o fuel m ts)
    (hone : OneListed o.cannedCodes m ts) (hd : (o.loop fuel m ts).status = .done) :
    ∀ t ∈ (o.loop fuel m ts).out, NoCycle t := by
  obtain ⟨ds, h1, h2⟩ := C79_default
  rw [hdef] at h1
  cases h1
  have hcc : OnlyCycles o.cannedCodes := by
    intro w hw
    have : ∀ w ∈ ([73, 76, 81, 82, 83, 85, 89].map fun q : ℚ => (⟨'G', .num q⟩ : Word)),
        (wordClass w).isSome = true := by decide +kernel
    have hlist : wordList defaultCanned = .ok ([73, 76, 81, 82, 83, 85, 89].map fun q : ℚ => ⟨'G', .num q⟩) := by
      decide +kernel
    rw [hdef] at hlist
    obtain ⟨c, hc⟩ := Option.isSome_iff_exists.1 (this w (by rw [← Except.ok.inj hlist]; exact hw))
    exact ⟨c, hc, (h2 w c hc).1 hw⟩
  intro t ht
  obtain ⟨l, k1, k2⟩ := C80_listed o hr hi hce hcc fuel ts m hm hig hax hts hone hd t ht
  refine ⟨l, k1, ?_⟩
  intro g hg
  have hn := (line_block_ok k1).cls g hg
  by_contra hs
  exact k2 g hg ((h2 _ _ hn).2 (by simpa using hs))

/-! ## Cases -/

/-- A test for lines with at most one listed gcode. -/
def oneListedB (cc : List Word) (m : Machine) : List (List Char) → Bool
  | [] => true
  | t :: ts =>
    (match Line.ofText t with
      | .ok l => match m.blockModalGcodes l.block with
        | .ok gs => decide (gs.countP (fun g => decide (g.word ∈ cc)) ≤ 1)
        | .error _ => true
      | .error _ => true) && oneListedB cc (m.processStr t).1 ts

theorem oneListedB_sound {cc : List Word} (ts : List (List Char)) :
    ∀ {m : Machine}, oneListedB cc m ts = true → OneListed cc m ts := by
  induction ts with
  | nil => exact fun _ => trivial
  | cons t ts ih =>
    intro m h
    unfold oneListedB at h
    rw [Bool.and_eq_true] at h
    refine ⟨?_, ih h.2⟩
    intro l gs hl hgs
    have h1 := h.1
    rw [hl] at h1
    simp only at h1
    rw [hgs] at h1
    exact of_decide_eq_true h1

/-- The default list. -/
def defaultOpts : NormOpts :=
  { cannedExpand := true, cannedCodes := [73, 76, 81, 82, 83, 85, 89].map fun q : ℚ => ⟨'G', .num q⟩ }

/-- The theorem applies to a program with three cycles. -/
example : (defaultOpts.loop 20 newNull expandSample).status = .done ∧
    ∀ t ∈ (defaultOpts.loop 20 newNull expandSample).out, NoCycle t :=
  ⟨by decide +kernel, C80_default defaultOpts rfl rfl rfl (by decide +kernel) 20 expandSample newNull (reader_null xyz).sound
    rfl (Finset.Subset.refl _) (linesExpandB_sound _ (by decide +kernel)) (oneListedB_sound _ (by decide +kernel))
    (by decide +kernel)⟩

/-- Two cycles on a line (the second made from the motion mode, for a word the first does not accept): the second
is printed as it is. -/
theorem C80_second_left : ∃ ts : List (List Char), (defaultOpts.loop 20 newNull ts).status = .done ∧
    (defaultOpts.loop 20 newNull ts).out.getLast?.map String.ofList = some "G83 Q1 R2 X1 Y1 Z-1" := by
  refine ⟨["G17 G90", "G0 Z5", "G83 X1 Y1 Z-1 R2 Q1", "G81 X2 Y2 Z-1 R2 Q1"].map String.toList, ?_⟩
  decide +kernel

end Pygcode
