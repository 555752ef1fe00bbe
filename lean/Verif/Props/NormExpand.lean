import Verif.Lemmas.NearRead

/-!
# `pygcode-norm --canned_expand` does what its input does (C67)
-/

namespace Pygcode
open Props Machine Spec

/-! ## Specification -/

/-- The plane given to the expansion (pygcode-norm:341). -/
def planeOf (m : Machine) : Cls :=
  match m.mode.plane with
  | none => .selectXYPlane
  | some pl => pl.cls

/-- A line whose cycle `g` (after `befores`, before `afters`) can be replaced: all words print
exactly, no two gcodes of one group are shown on one line, and where the cycle is reached a plane is
selected, the retract mode is not G99, the cycle is done at least once and does not name U, V, W. -/
structure Expands (o : NormOpts) (fuel : ℕ) (m : Machine) (l : Line) (befores : List GCode) (g : GCode)
    (afters : List GCode) : Prop where
  asked : g.word ∈ o.cannedCodes
  plainB : ∀ w ∈ befores.flatMap (fun x => x.word :: x.params), PlainWord w
  plainG : ∀ w ∈ g.word :: g.params, PlainWord w
  plainA : ∀ w ∈ afters.flatMap (fun x => x.word :: x.params), PlainWord w
  conflictB : o.singles = false → ¬ Conflict befores
  conflictA : o.singles = false → ¬ Conflict afters
  comment : o.rmComments = true ∨ l.macro? = none ∨ ∀ c, l.comment = some (.semicolon c) → c = []
  here : Expandable (m.processAll befores).1 g
  moves : ∀ p, (m.processAll befores).1.pos = .ok p →
    ∀ c ∈ (simplify fuel g p (planeOf (m.processAll befores).1) (m.processAll befores).1.incremental false
      (m.processAll befores).1.axes).1, ∀ w ∈ c.word :: c.params, PlainWord w

/-- The line, read by machine `m`: a line to be expanded can be, any other line is tidy. -/
def LineExpands (o : NormOpts) (fuel : ℕ) (m : Machine) (t : List Char) : Prop :=
  ∀ l gs, Line.ofText t = .ok l → m.blockModalGcodes l.block = .ok gs →
    if o.cannedExpand && gs.any (fun g => decide (g.word ∈ o.cannedCodes)) then
      ∀ befores g afters, splitGcodes gs .cannedCycle true = (befores, [g], afters) →
        Expands o fuel m l befores g afters
    else if o.full then Tidy o l gs [] else Tidy o l l.block.gcodes l.block.modalParams

/-- All lines, as they are reached. -/
def LinesExpand (o : NormOpts) (fuel : ℕ) (m : Machine) : List (List Char) → Prop
  | [] => True
  | t :: ts => LineExpands o fuel m t ∧ LinesExpand o fuel (m.processStr t).1 ts

/-- Two machines agree on everything but the motion mode and the range: same position, offsets and
settings, and the same gcodes in all other slots of the mode. -/
def SameButMotion (a b : Machine) : Prop :=
  a.pos = b.pos ∧ a.absPos = b.absPos ∧ a.state = b.state ∧ a.axes = b.axes ∧
    ∀ k, k ≠ 1 → Option.Rel SameGCode (a.mode k) (b.mode k)

/-! ## Steps -/

theorem NormRes.andThen_assoc (r : NormRes) (f g : Machine → NormRes) :
    (r.andThen f).andThen g = r.andThen (fun m => (f m).andThen g) := by
  obtain ⟨out, m, s⟩ := r
  cases s <;> simp only [NormRes.andThen]
  obtain ⟨out', m', s'⟩ := f m
  cases s' <;> simp

/-- What was printed leads reader `b` along with the script's machine, whose part is `x`. -/
def Follows (cc : List Word) (b : Machine) (r : NormRes) (x : MRes) : Prop :=
  r.status = .done → x = (r.m, none) ∧
    ∃ b', readLines b r.out = (b', none) ∧ Behind cc r.m b' ∧ Sound r.m ∧ Sound b'

theorem Follows.andThen {cc : List Word} {b : Machine} {r : NormRes} {x : MRes} (h : Follows cc b r x)
    {f : Machine → NormRes} {F : Machine → MRes}
    (hf : ∀ b', x.2 = none → Behind cc x.1 b' → Sound x.1 → Sound b' → Follows cc b' (f x.1) (F x.1)) :
    Follows cc b (r.andThen f) (Machine.andThen x F) := by
  obtain ⟨out, m, s⟩ := r
  cases s with
  | done =>
    obtain ⟨rfl, b', h1, h2, h3, h4⟩ := h rfl
    intro hd
    obtain ⟨k1, b'', k2, k3, k4, k5⟩ := hf b' rfl h2 h3 h4 hd
    refine ⟨k1, b'', ?_, k3, k4, k5⟩
    show readLines b (out ++ (f m).out) = _
    rw [readLines_append]
    simp only at h1
    rw [h1]
    exact k2
  | raised e => intro hd; cases hd
  | _ => intro hd; cases hd

theorem Follows.nil {cc : List Word} {m b : Machine} (h : Behind cc m b) (hm : Sound m) (hb : Sound b) :
    Follows cc b ⟨[], m, .done⟩ (m, none) :=
  fun _ => ⟨rfl, b, rfl, h, hm, hb⟩

/-- A line of words and its execution. -/
theorem putProcess_follows (o : NormOpts) (hr : o.rmGcodes = []) {cc : List Word} {m b : Machine} (h : Behind cc m b)
    (hm : Sound m) (hb : Sound b) (gs : List GCode) (hcl : ∀ g ∈ gs, wordClass g.word = some g.cls)
    (hg : ∀ g ∈ gs, GOK g) (ho : Ordered gs) (hws : ∀ g ∈ gs, g.ws = false) (hst : execSort gs = gs)
    (hp : ∀ w ∈ gs.flatMap (fun x => x.word :: x.params), PlainWord w) (hc : o.singles = false → ¬ Conflict gs) :
    Follows cc b (o.putProcess m gs) (m.processAll gs) := by
  unfold NormOpts.putProcess
  by_cases hz : gs = []
  · rw [if_pos hz]; subst hz; exact .nil h hm hb
  rw [if_neg hz]
  obtain ⟨ls, hw, hal⟩ := write_read o hr (Alike.refl b) hb.wf hb.ok hb.named ⟨⟨[], [], []⟩, none, none⟩ gs []
    ⟨by simpa using hp, fun _ _ => rfl, hc, by simp, .inr (.inl rfl)⟩ (fun _ => rfl) hcl hg ho hws (by simp)
    trivial (by simp)
  simp only at hw
  rw [hw]
  rw [processGcodes_sorted, hst] at hal
  obtain ⟨k1, k2⟩ := processAll_behind (forall₂_refl gs) hg h hm.wf hb.wf
  intro hd
  unfold NormRes.put NormRes.andThen at hd ⊢
  simp only [List.append_nil] at hd ⊢
  rw [processGcodes_sorted, hst] at hd ⊢
  have s1 := Sound.all hg hcl hm
  generalize m.processAll gs = x at *
  obtain ⟨x, _ | e⟩ := x
  · refine ⟨rfl, (readLines b ls).1, ?_, ?_, s1, hb.lines ls⟩
    · simp only [NormRes.ofM, List.append_nil]
      exact Prod.ext rfl (by rw [← hal.2, ← k2])
    · refine ⟨k1.near.trans hal.1.near, ?_⟩
      have e1 := k1.motion
      have e2 := hal.1.mode 1
      simp only [NormRes.ofM] at e1 e2 ⊢
      rcases e1 with e1 | e1 | e1
      · exact .inl e1
      · exact .inr (.inl e1)
      · refine .inr (.inr ?_)
        generalize x.mode 1 = u at e1
        generalize (b.processAll gs).1.mode 1 = v at e1 e2
        generalize (readLines b ls).1.mode 1 = w at e2
        cases e1 with
        | none => exact e2
        | some s => cases e2 with
          | some s' => exact .some ⟨s.1.trans s'.1, s.2.1.trans s'.2.1, s.2.2.trans s'.2.2⟩
  · simp [NormRes.ofM] at hd

/-- A comment on a line of its own. -/
theorem comment_follows (o : NormOpts) (hr : o.rmGcodes = []) {cc : List Word} {m b : Machine} (h : Behind cc m b)
    (hm : Sound m) (hb : Sound b) (c : Option Comment) (hc : CommentOK none (if o.rmComments then none else c)) :
    Follows cc b (NormRes.put m (o.write [] [] c)) (m, none) := by
  have := writeOne_read o hr (Alike.refl b) hb.ok hb.named [] [] c none (by simp) (by simp) (by simp [Ordered]) (by simp)
    (by simp) (by simp) (by simp) (short_conflict [] (by simp)) hc (by simp) (.inl rfl)
  intro _
  unfold NormOpts.write
  rw [if_neg (by simp), if_neg (by simp)]
  refine ⟨rfl, (readLines b (o.writeOne [] [] c none)).1, Prod.ext rfl ?_, ?_, hm, hb.lines _⟩
  · exact this.2.symm
  · have e : b.processGcodes [] [] = (b, none) := rfl
    rw [e] at this
    refine ⟨h.near.trans this.1.near, ?_⟩
    have e1 := h.motion
    have e2 := this.1.mode 1
    rcases e1 with e1 | e1 | e1
    · exact .inl e1
    · exact .inr (.inl e1)
    · refine .inr (.inr ?_)
      simp only [NormRes.put] at e1 e2 ⊢
      generalize m.mode 1 = u at e1
      generalize b.mode 1 = v at e1 e2
      generalize (readLines b (o.writeOne [] [] c none)).1.mode 1 = w at e2
      cases e1 with
      | none => exact e2
      | some s => cases e2 with
        | some s' => exact .some ⟨s.1.trans s'.1, s.2.1.trans s'.2.1, s.2.2.trans s'.2.2⟩

/-! ## The comment that shows the cycle -/

theorem pyName_table (c : Cls) : ∀ x ∈ c.pyName.toList, x ≠ '%' ∧ x ≠ '\n' ∧ x ≠ ';' ∧ x ≠ ')' := by
  have := Cls.forall_of_all (p := fun c => c.pyName.toList.all
    (fun x => x != '%' && x != '\n' && x != ';' && x != ')')) (by decide +kernel) c
  intro x hx
  have := List.all_eq_true.1 this x hx
  simpa [and_assoc] using this

theorem mem_joinWith {s : List Char} {x : Char} : ∀ {ls : List (List Char)}, x ∈ joinWith s ls → x ∈ s ∨ ∃ l ∈ ls, x ∈ l
  | [], h => by cases h
  | [l], h => .inr ⟨l, by simp, h⟩
  | l :: l' :: ls, h => by
    unfold joinWith at h
    rcases List.mem_append.1 h with h | h
    · rcases List.mem_append.1 h with h | h
      · exact .inr ⟨l, by simp, h⟩
      · exact .inl h
    · rcases mem_joinWith h with h | ⟨k, hk, h⟩
      · exact .inl h
      · exact .inr ⟨k, by simp [List.mem_cons.1 hk], h⟩

theorem plain_str_safe {w : Word} (h : PlainWord w) : ∀ x ∈ w.str, x ≠ '%' ∧ x ≠ '\n' ∧ x ≠ ';' ∧ x ≠ ')' := by
  intro x hx
  rcases plain_str_chars h x hx with h | h | rfl | rfl
  · refine ⟨?_, ?_, ?_, ?_⟩ <;> rintro rfl <;> revert h <;> unfold IsLetter <;> decide
  · refine ⟨?_, ?_, ?_, ?_⟩ <;> rintro rfl <;> revert h <;> decide
  · decide
  · decide

theorem expanded_comment (g : GCode) (hp : ∀ w ∈ g.word :: g.params, PlainWord w) :
    CommentOK none (some (.brackets ("expanded: ".toList ++ NormOpts.reprText g))) := by
  have key : ∀ x ∈ "expanded: ".toList ++ NormOpts.reprText g, x ≠ '%' ∧ x ≠ '\n' ∧ x ≠ ';' ∧ x ≠ ')' := by
    intro x hx
    have hlit : ∀ l : List Char, l.all (fun x => x != '%' && x != '\n' && x != ';' && x != ')') = true → x ∈ l →
        x ≠ '%' ∧ x ≠ '\n' ∧ x ≠ ';' ∧ x ≠ ')' := by
      intro l hl hx
      simpa [and_assoc] using List.all_eq_true.1 hl x hx
    unfold NormOpts.reprText at hx
    simp only [List.mem_append] at hx
    rcases hx with hx | ((((hx | hx) | hx) | hx) | hx) | hx
    · exact hlit _ (by decide) hx
    · exact hlit ['<'] (by decide) hx
    · exact pyName_table _ x hx
    · exact hlit [':', ' '] (by decide) hx
    · exact plain_str_safe (hp _ (by simp)) x hx
    · split_ifs at hx
      · cases hx
      · simp only [List.mem_append] at hx
        rcases hx with (hx | hx) | hx
        · exact hlit ['{'] (by decide) hx
        · rcases mem_joinWith hx with hx | ⟨l, hl, hx⟩
          · exact hlit [',', ' '] (by decide) hx
          · obtain ⟨w, hw, rfl⟩ := List.mem_map.1 hl
            exact plain_str_safe (hp w (List.mem_cons_of_mem _ ((sortedParams_perm g).mem_iff.1 hw))) x hx
        · exact hlit ['}'] (by decide) hx
    · exact hlit ['>'] (by decide) hx
  exact ⟨fun h => (key _ h).1 rfl, fun h => (key _ h).2.1 rfl, fun h => (key _ h).2.2.1 rfl, fun h => (key _ h).2.2.2 rfl⟩

/-! ## The expansion -/

theorem putAll_eq (o : NormOpts) (m : Machine) (gs : List GCode) (s : Status) :
    o.putAll m gs s = ⟨gs.flatMap (fun g => o.writeOne [g] [] none none), m, s⟩ := by
  induction gs with
  | nil => rfl
  | cons g gs ih =>
    unfold NormOpts.putAll NormOpts.write
    rw [if_neg (by simp), if_neg (by simp)]
    unfold NormRes.put NormRes.andThen
    simp only [ih, List.flatMap_cons]

theorem read_empty (m : Machine) : m.processStr [] = (m, none) := rfl

/-- What is written for gcodes, with blanked words or not, reads as their own texts. -/
theorem written_lines (o : NormOpts) (hr : o.rmGcodes = []) {gs out : List GCode} (h : List.Forall₂ Omitted gs out)
    (hg : ∀ g ∈ gs, PlainCode g) (hgr : ∀ g ∈ gs, g.cls.group = some 1) :
    ∀ m : Machine, readLines m (out.flatMap (fun g => o.writeOne [g] [] none none)) = readLines m (out.map GCode.str) := by
  induction h with
  | nil => exact fun _ => rfl
  | @cons g x gs out h1 _ ih =>
    intro m
    obtain ⟨c1, c2, c3, -⟩ := h1
    have hx : x = { g with ws := x.ws } := by
      obtain ⟨c, w, p, s⟩ := x
      simp only at c1 c2 c3
      subst c1 c2 c3; rfl
    have hr1 := read_written o hr m g (hg g (by simp)) (hgr g (by simp)) x.ws
    rw [← hx] at hr1
    rw [List.flatMap_cons, readLines_append, List.map_cons]
    have : readLines m (o.writeOne [x] [] none none) = m.processStr x.str := by
      unfold NormOpts.writeOne
      split_ifs with hz
      · rw [hz.1, read_empty] at hr1
        rw [← hr1]; rfl
      · rw [readLines_one, hr1]
    rw [this]
    conv_rhs => unfold readLines
    congr 1
    funext m'
    exact ih (fun y hy => hg y (by simp [hy])) (fun y hy => hgr y (by simp [hy])) m'

theorem cycle_named {g : GCode} (hn : Named g) (h : g.cls.isSub .cannedCycle = true) : IsCycle g := by
  refine ⟨h, fun hc => ?_⟩
  have := wordClass_letter (show wordClass g.word = some g.cls from hn)
  rw [hc] at this
  have he : classLetters .cannedCycle = [] := by decide +kernel
  rw [he] at this
  cases this

/-- The expansion, then the cycle on the script's machine. -/
theorem expansion_follows (o : NormOpts) (hr : o.rmGcodes = []) (fuel : ℕ) {cc : List Word} {m b : Machine}
    (h : Behind cc m b) (hm : Sound m) (hb : Sound b) (hax : xyz ⊆ m.axes) (g : GCode) (hok : GOK g)
    (hn : Named g) (hsub : g.cls.isSub .cannedCycle = true) (hcc : g.word ∈ cc) (he : Expandable m g)
    (hmv : ∀ p, m.pos = .ok p → ∀ c ∈ (simplify fuel g p (planeOf m) m.incremental false m.axes).1,
      ∀ w ∈ c.word :: c.params, PlainWord w) :
    Follows cc b ((o.putExpansion fuel m g).andThen (fun m => .ofM (m.processGcodes [g] []))) (m.process g) := by
  intro hd
  have hcy := cycle_named hn hsub
  unfold NormOpts.putExpansion at hd ⊢
  cases hp : m.pos with
  | error e => rw [hp] at hd; cases hd
  | ok p =>
    rw [hp] at hd
    simp only at hd ⊢
    rw [putAll_eq] at hd ⊢
    have hex : o.expansion fuel m p g = o.omitGen (simplify fuel g p (planeOf m) m.incremental false m.axes) := rfl
    rw [hex] at hd ⊢
    have hpl := hmv p hp
    cases hs : simplify fuel g p (planeOf m) m.incremental false m.axes with
    | mk out st =>
      rw [hs] at hd hpl
      simp only at hpl
      have hdone : (o.omitGen (out, st)).2 = .done := by
        cases hq : (o.omitGen (out, st)).2 with
        | done => rfl
        | _ => rw [hq] at hd; cases hd
      have hst : st = .done := by
        unfold NormOpts.omitGen at hdone
        split_ifs at hdone
        · exact hdone
        · unfold Gen.andThen at hdone
          cases hq : (omitFrom newNull out).2 with
          | done => rw [hq] at hdone; exact hdone
          | _ => rw [hq] at hdone; simp only at hdone; rw [hq] at hdone; cases hdone
      subst hst
      obtain ⟨m₁, m₂, h1, h2, h3, h4⟩ := expansion_near fuel hm hax g hcy hok he p hp (planeOf m) rfl out hs
      have hpc := h4.plainCode hpl
      have hgr : ∀ c ∈ out, c.cls.group = some 1 := fun c hc => (isMove_params (h4 c hc).2.2.1).2.1
      have hgok : ∀ c ∈ out, GOK c := fun c hc => (h4 c hc).1
      obtain ⟨k1, k2⟩ := processAll_behind (forall₂_canon out) hgok h hm.wf hb.wf
      rw [h1] at k1 k2
      have hread : readLines b (out.map GCode.str) = b.processAll (out.map canon) := read_lines_plain b out hpc
      obtain ⟨b', hb', hnb⟩ : ∃ b', readLines b ((o.omitGen (out, .done)).1.flatMap
          (fun g => o.writeOne [g] [] none none)) = (b', none) ∧ NearTo m₁ b' := by
        unfold NormOpts.omitGen
        by_cases hf : o.full = true
        · rw [if_pos hf]
          simp only
          rw [written_lines o hr (List.forall₂_same.2 (fun g _ => ⟨rfl, rfl, rfl, fun hw => by
            rename_i hg'; rw [(hpc g hg').noWs] at hw; cases hw⟩)) hpc hgr b, hread]
          exact ⟨_, Prod.ext rfl k2.symm, k1.near⟩
        · rw [if_neg hf]
          obtain ⟨out', e1, e2, e3⟩ := C47_same out hpc
          have e1' : omitFrom newNull out = (out', .done) := e1
          rw [e1']
          have e4 : (Gen.andThen (out', .done) ([], .done)).1 = out' := by simp [Gen.andThen]
          rw [e4, written_lines o hr e2 hpc hgr b]
          obtain ⟨a', c', f1, f2, f3⟩ := e3 (tight b) (tight_reader hb) out.length
          rw [List.take_length] at f1
          rw [e2.length_eq, List.take_length] at f2
          have g1 := lines_close (out.map GCode.str) (tight_close b) (tight_reader hb).sound hb
          have g2 := lines_close (out'.map GCode.str) (tight_close b) (tight_reader hb).sound hb
          rw [f1, hread] at g1
          rw [f2] at g2
          refine ⟨_, Prod.ext rfl g2.2.symm, ?_⟩
          exact (k1.near.trans g1.1.near.symm).trans (f3.near.trans g2.1.near)
      have hg1 : m.processGcodes [g] [] = (m₂, none) := by
        rw [processGcodes_sorted, execSort_single, processAll_one, h2]
      unfold NormRes.andThen
      rw [hdone]
      simp only [hg1, NormRes.ofM, List.append_nil]
      have hsm := hm.process g hok hn
      have hslot := process_slot m hm.wf g hok
      rw [h2] at hsm hslot
      have hct := cycle_table _ hcy.1 hcy.2
      refine ⟨h2, b', hb', ⟨h3.trans hnb, .inr (.inl ⟨copyOf g, ?_, hcc⟩)⟩, hsm, ?_⟩
      · simp only at hslot
        rw [hslot, if_neg (by rw [hct.1]; decide), if_pos (moving_group _ (.inr (.inr hct.1)))]
      · have := hb.lines ((o.omitGen (out, .done)).1.flatMap (fun g => o.writeOne [g] [] none none))
        rw [hb'] at this
        exact this

/-! ## Lines -/

theorem split_append {gs befores afters : List GCode} {g : GCode} {c : Cls}
    (h : splitGcodes gs c true = (befores, [g], afters)) :
    execSort gs = befores ++ g :: afters ∧ g.cls.isSub c = true := by
  obtain ⟨a, b, d, h1, -, -, -, h5⟩ := C25_split gs c true
  rw [h] at h1
  obtain ⟨rfl, rfl, rfl⟩ : befores = a ∧ [g] = b ∧ afters = d := by
    simpa using h1
  refine ⟨?_, ?_⟩
  · unfold splitGcodes at h
    simp only [if_true] at h
    generalize execSort gs = l at h
    cases hi : l.findIdx? (fun g => g.cls.isSub c) with
    | none => rw [hi] at h; simp at h
    | some i =>
      rw [hi] at h
      simp only [Prod.mk.injEq] at h
      obtain ⟨e1, e2, e3⟩ := h
      rw [← e1, ← e3]
      conv_lhs => rw [← List.take_append_drop i l, ← List.take_append_drop 1 (l.drop i), e2, List.drop_drop]
      simp [Nat.add_comm]
  · rcases h5 with ⟨h5, -⟩ | ⟨x, hx, h5⟩
    · cases h5
    · cases hx; exact h5

theorem execSort_of_pairwise {gs : List GCode} (h : gs.Pairwise (fun a b => a.cls.order ≤ b.cls.order)) :
    execSort gs = gs := List.Pairwise.insertionSort_eq h

theorem processAll_frozen {gs : List GCode} (hg : ∀ g ∈ gs, GOK g) :
    ∀ {m : Machine}, m.WF → frozen (m.processAll gs).1 = frozen m := by
  induction gs with
  | nil => exact fun _ => rfl
  | cons g gs ih =>
    intro m hm
    have h1 := process_frozen m hm g (hg g (by simp))
    have h2 := (path_process m hm g (hg g (by simp))).wf hm
    unfold processAll andThen
    generalize m.process g = r at h1 h2
    obtain ⟨r, _ | e⟩ := r
    · exact (ih (fun x hx => hg x (by simp [hx])) h2).trans h1
    · exact h1

/-- A line that is expanded. -/
theorem expandLine_follows (o : NormOpts) (hr : o.rmGcodes = []) (fuel : ℕ) {cc : List Word}
    (hcc : ∀ w ∈ o.cannedCodes, w ∈ cc) {m b : Machine} (h : Behind cc m b) (hm : Sound m) (hb : Sound b) (hax : xyz ⊆ m.axes) {t : List Char} {l : Line}
    (hl : Line.ofText t = .ok l) {gs : List GCode} (hgs : m.blockModalGcodes l.block = .ok gs)
    (hx : ∀ befores g afters, splitGcodes gs .cannedCycle true = (befores, [g], afters) →
      Expands o fuel m l befores g afters) :
    Follows cc b (o.expandLine fuel m gs l.comment) (m.processBlock l.block) := by
  obtain ⟨e1, e2, e3, e4, e5, e6⟩ := effective_ok hl hm.ok hm.named hgs
  have hso : gs.Pairwise (fun a b => a.cls.order ≤ b.cls.order) := by
    have := (execSort_stable gs).2.1
    rw [e5] at this
    exact this
  obtain ⟨c1, -⟩ := line_comment_ok hl
  unfold NormOpts.expandLine
  split
  · rename_i befores g afters hsp
    obtain ⟨ha, hsub⟩ := split_append hsp
    have hX := hx befores g afters hsp
    rw [e5] at ha
    have hmb : ∀ x ∈ befores, x ∈ gs := fun x hx => by rw [ha]; simp [hx]
    have hmg : g ∈ gs := by rw [ha]; simp
    have hma : ∀ x ∈ afters, x ∈ gs := fun x hx => by rw [ha]; simp [hx]
    have sb : befores.Sublist gs := by rw [ha]; exact List.sublist_append_left _ _
    have sa : afters.Sublist gs := by
      rw [ha]; exact (List.sublist_cons_self g afters).trans (List.sublist_append_right _ _)
    have hval : m.processBlock l.block = Machine.andThen (m.processAll befores) (fun m =>
        Machine.andThen (m, none) (fun m => Machine.andThen (m.process g) (fun m =>
          Machine.andThen (m.processAll afters) (fun m => (m, none))))) := by
      rw [e6, ha, processAll_append]
      congr 1
      funext m'
      show m'.processAll (g :: afters) = Machine.andThen (m'.process g) _
      conv_lhs => unfold processAll
      congr 1
      funext m''
      rcases m''.processAll afters with ⟨_, _ | _⟩ <;> rfl
    rw [hval]
    refine (putProcess_follows o hr h hm hb befores (fun x hx => e1 x (hmb x hx)) (fun x hx => e2 x (hmb x hx))
      (e3.sublist sb) (fun x hx => e4 x (hmb x hx)) (execSort_of_pairwise (hso.sublist sb)) hX.plainB
      hX.conflictB).andThen ?_
    intro b₁ _ h₁ hm₁ hb₁
    refine (comment_follows o hr h₁ hm₁ hb₁ _ (by
      split_ifs
      · trivial
      · exact expanded_comment g hX.plainG)).andThen ?_
    intro b₂ _ h₂ hm₂ hb₂
    simp only at h₂ hm₂ ⊢
    rw [← NormRes.andThen_assoc]
    have hax₁ : xyz ⊆ (m.processAll befores).1.axes := by
      have : (m.processAll befores).1.axes = m.axes :=
        congrArg Prod.fst (processAll_frozen (fun x hx => e2 x (hmb x hx)) hm.wf)
      rw [this]; exact hax
    refine (expansion_follows o hr fuel h₂ hm₂ hb₂ hax₁ g (e2 g hmg) (e1 g hmg) hsub (hcc _ hX.asked) hX.here hX.moves).andThen ?_
    intro b₃ _ h₃ hm₃ hb₃
    refine (putProcess_follows o hr h₃ hm₃ hb₃ afters (fun x hx => e1 x (hma x hx)) (fun x hx => e2 x (hma x hx))
      (e3.sublist sa) (fun x hx => e4 x (hma x hx)) (execSort_of_pairwise (hso.sublist sa)) hX.plainA
      hX.conflictA).andThen ?_
    intro b₄ _ h₄ hm₄ hb₄
    split_ifs with hc
    · exact .nil h₄ hm₄ hb₄
    · refine comment_follows o hr h₄ hm₄ hb₄ _ ?_
      split_ifs with hrm
      · trivial
      · refine commentOK_none c1 ?_
        rcases hX.comment with hX | hX | hX
        · exact absurd hX hrm
        · exact .inl hX
        · exact .inr hX
  · intro hd; cases hd

/-- A line that is not. -/
theorem plainLine_follows (o : NormOpts) (hr : o.rmGcodes = []) {cc : List Word} {m b : Machine}
    (h : Behind cc m b) (hm : Sound m) (hb : Sound b) (hig : m.ignoreInvalid = false)
    {t : List Char} {l : Line} (hl : Line.ofText t = .ok l) {gs : List GCode} (hgs : m.blockModalGcodes l.block = .ok gs)
    (hno : ∀ g ∈ gs, g.word ∉ cc)
    (htd : if o.full then Tidy o l gs [] else Tidy o l l.block.gcodes l.block.modalParams) :
    Follows cc b (o.plainLine m l gs) (m.processBlock l.block) := by
  obtain ⟨e1, e2, e3, e4, e5, e6⟩ := effective_ok hl hm.ok hm.named hgs
  obtain ⟨c1, c2⟩ := line_comment_ok hl
  have hbk := line_block_ok hl
  have hmot : l.block.modalParams = [] ∨ Option.Rel SameGCode (m.mode 1) (b.mode 1) := by
    by_cases hne : l.block.modalParams = []
    · exact .inl hne
    right
    unfold blockModalGcodes at hgs
    rcases h.motion with hx | ⟨x, hx, hxc⟩ | hx
    · have : m.modalGcode l.block.modalParams = .error .invalidState := by
        unfold modalGcode
        rw [if_neg hne, show m.mode.motion = none from hx]
        simp [hig]
      rw [this] at hgs; cases hgs
    · exfalso
      rw [modalGcode_closed m x hx (hm.ok 1 x hx).2.1 (hm.named 1 x hx) _ hne hbk.unused] at hgs
      split_ifs at hgs
      · cases hgs
        refine hno (modalOf x l.block.modalParams) ?_ hxc
        exact (execSort_stable _).1.mem_iff.2 (by simp)
    · exact hx
  have key : ∃ ls, (if o.full = true then o.write gs [] l.comment l.macro?
      else o.write l.block.gcodes l.block.modalParams l.comment l.macro?) = .ok ls ∧
      (m.processBlock l.block).2 = (readLines b ls).2 ∧ Behind cc (m.processBlock l.block).1 (readLines b ls).1 := by
    have comb : ∀ (x y z : MRes), Behind cc x.1 y.1 → x.2 = y.2 → AlikeRes y z →
        x.2 = z.2 ∧ Behind cc x.1 z.1 := by
      rintro ⟨x, ex⟩ ⟨y, ey⟩ ⟨z, ez⟩ k1 k2 ⟨k3, k4⟩
      refine ⟨k2.trans k4, k1.near.trans k3.near, ?_⟩
      have a1 := k1.motion
      have a2 := k3.mode 1
      simp only at a1 a2 ⊢
      rcases a1 with a1 | a1 | a1
      · exact .inl a1
      · exact .inr (.inl a1)
      · refine .inr (.inr ?_)
        generalize x.mode 1 = u at a1
        generalize y.mode 1 = v at a1 a2
        generalize z.mode 1 = w at a2
        cases a1 with
        | none => exact a2
        | some s => cases a2 with
          | some s' => exact .some ⟨s.1.trans s'.1, s.2.1.trans s'.2.1, s.2.2.trans s'.2.2⟩
    by_cases hf : o.full = true
    · rw [if_pos hf] at htd ⊢
      obtain ⟨ls, hw, hal⟩ := write_read o hr (Alike.refl b) hb.wf hb.ok hb.named l gs [] htd (fun _ => rfl) e1 e2 e3 e4
        (by simp) c1 c2
      refine ⟨ls, hw, ?_⟩
      rw [processGcodes_sorted, e5] at hal
      obtain ⟨k1, k2⟩ := processAll_behind (forall₂_refl gs) e2 h hm.wf hb.wf
      rw [e6]
      exact comb _ _ _ k1 k2 hal
    · rw [if_neg hf] at htd ⊢
      obtain ⟨ls, hw, hal⟩ := write_read o hr (Alike.refl b) hb.wf hb.ok hb.named l _ _ htd (fun h => absurd h hf) hbk.cls
        hbk.ok hbk.ordered hbk.ws hbk.unused c1 c2
      refine ⟨ls, hw, ?_⟩
      obtain ⟨k1, k2⟩ := gcodes_behind h hm hb (forall₂_refl l.block.gcodes) hbk.ok l.block.modalParams hbk.unused hmot
      exact comb _ _ _ k1 k2 hal
  obtain ⟨ls, hw, k1, k2⟩ := key
  have s1 : Sound (m.processBlock l.block).1 := hm.gcodes hbk.ok hbk.cls _
  intro hd
  unfold NormOpts.plainLine at hd ⊢
  rw [hw] at hd ⊢
  unfold NormRes.put NormRes.andThen at hd ⊢
  simp only at hd ⊢
  generalize m.processBlock l.block = x at *
  obtain ⟨x, _ | e⟩ := x
  · simp only [NormRes.ofM, List.append_nil]
    refine ⟨trivial, (readLines b ls).1, Prod.ext rfl k1.symm, k2, s1, hb.lines ls⟩
  · simp [NormRes.ofM] at hd

theorem line_follows (o : NormOpts) (hr : o.rmGcodes = []) (hi : o.rmInvalid = false) (hce : o.cannedExpand = true)
    (fuel : ℕ) {m b : Machine} (h : Behind o.cannedCodes m b) (hm : Sound m) (hb : Sound b)
    (hig : m.ignoreInvalid = false) (hax : xyz ⊆ m.axes) (t : List Char) (ht : LineExpands o fuel m t) :
    Follows o.cannedCodes b (o.line fuel m t) (m.processStr t) := by
  unfold NormOpts.line processStr
  cases hl : Line.ofText t with
  | error e => intro hd; cases hd
  | ok l =>
    simp only [hi, Bool.false_eq_true, if_false]
    cases hgs : m.blockModalGcodes l.block with
    | error e => intro hd; cases hd
    | ok gs =>
      have hx := ht l gs hl hgs
      simp only
      by_cases hany : (o.cannedExpand && gs.any (fun g => decide (g.word ∈ o.cannedCodes))) = true
      · rw [if_pos hany] at hx ⊢
        exact expandLine_follows o hr fuel (fun _ h => h) h hm hb hax hl hgs hx
      · rw [if_neg hany] at hx ⊢
        refine plainLine_follows o hr h hm hb hig hl hgs ?_ hx
        intro g hg hc
        apply hany
        rw [hce, Bool.true_and, List.any_eq_true]
        exact ⟨g, hg, by simpa using hc⟩

theorem str_frozen {m : Machine} (hm : m.WF) (t : List Char) : frozen (m.processStr t).1 = frozen m := by
  unfold processStr
  cases hl : Line.ofText t with
  | error e => rfl
  | ok l =>
    simp only
    unfold processBlock processGcodes
    cases hx : m.modalGcode l.block.modalParams with
    | error e => rfl
    | ok og =>
      simp only
      refine processAll_frozen ?_ hm
      intro g hg
      rcases List.mem_append.1 ((execSort_stable _).1.mem_iff.1 hg) with hg | hg
      · exact (line_block_ok hl).ok g hg
      · refine modalGcode_gok (m := m) (mp := l.block.modalParams) ?_
        rw [hx]
        simpa using hg

/-- **C67**: if `pygcode-norm --canned_expand` finishes on lines whose cycles can be replaced (see
`Expands`), then the lines themselves are accepted and lead to the script's final machine, and what
was printed, read back, is accepted and leads to the same position, offsets and modes; only the
motion mode (and the range visited) may differ.  Lines that are not expanded may use left-over
words only with the same motion mode, which is shown, not assumed.  As what is printed for the first
lines does not depend on the others, this also holds after each line.

Not covered: `--rm_gcodes`, `--rm_invalid_modal`, and cycles for which it is wrong (G99, repetitions
0, U, V, W; see `C67_g99_refuted`). -/
theorem C67_same_partial (o : NormOpts) (hr : o.rmGcodes = []) (hi : o.rmInvalid = false) (hce : o.cannedExpand = true)
    (fuel : ℕ) (m : Machine) (hm : Sound m) (hig : m.ignoreInvalid = false) (hax : xyz ⊆ m.axes)
    (ts : List (List Char)) (hts : LinesExpand o fuel m ts) (hd : (o.loop fuel m ts).status = .done) :
    readLines m ts = ((o.loop fuel m ts).m, none) ∧
      ∃ b, readLines m (o.loop fuel m ts).out = (b, none) ∧ SameButMotion (o.loop fuel m ts).m b := by
  suffices key : ∀ (ts : List (List Char)) (m b : Machine), Behind o.cannedCodes m b → Sound m → Sound b →
      m.ignoreInvalid = false → xyz ⊆ m.axes → LinesExpand o fuel m ts →
      Follows o.cannedCodes b (o.loop fuel m ts) (readLines m ts) by
    obtain ⟨h1, b, h2, h3, -, -⟩ := key ts m m (.refl _ m) hm hm hig hax hts hd
    exact ⟨h1, b, h2, h3.near.pos, h3.near.abs, h3.near.state, h3.near.axes, h3.near.mode⟩
  intro ts
  induction ts with
  | nil => exact fun m b h hm hb _ _ _ => .nil h hm hb
  | cons t ts ih =>
    intro m b h hm hb hig hax hts
    unfold NormOpts.loop readLines
    refine (line_follows o hr hi hce fuel h hm hb hig hax t hts.1).andThen ?_
    intro b' _ h' hm' hb'
    have hfr := str_frozen hm.wf t
    exact ih _ b' h' hm' hb' ((congrArg (fun x => x.2.1) hfr).trans hig)
      (by have : (m.processStr t).1.axes = m.axes := congrArg Prod.fst hfr
          rw [this]; exact hax) hts.2

/-! ## Cases -/

/-- A test for cycles that can be replaced (sufficient). -/
def expandableB (m : Machine) (g : GCode) : Bool :=
  m.mode.plane.isSome &&
  (match m.mode.cannedReturn with
    | none => true
    | some r => !(r.cls.isSub .cannedCycleReturnToR)) &&
  decide (1 ≤ reps g) &&
  decide (g.num? 'U' = none ∧ g.num? 'V' = none ∧ g.num? 'W' = none)

theorem expandableB_sound {m : Machine} {g : GCode} (h : expandableB m g = true) : Expandable m g := by
  unfold expandableB at h
  simp only [Bool.and_eq_true, decide_eq_true_eq] at h
  obtain ⟨⟨⟨h1, h2⟩, h3⟩, h4, h5, h6⟩ := h
  refine ⟨?_, ?_, h3, ?_⟩
  · intro hn
    rw [hn] at h1
    cases h1
  · rintro ⟨r, hr, hs⟩
    rw [hr] at h2
    simp [hs] at h2
  · rintro a - (rfl | rfl | rfl)
    · exact h4
    · exact h5
    · exact h6

/-- A test for lines that can be expanded (sufficient). -/
def expandsB (o : NormOpts) (fuel : ℕ) (m : Machine) (l : Line) (befores : List GCode) (g : GCode)
    (afters : List GCode) : Bool :=
  decide (g.word ∈ o.cannedCodes) &&
  (befores.flatMap (fun x => x.word :: x.params)).all Pygcode.plainB &&
  (g.word :: g.params).all Pygcode.plainB &&
  (afters.flatMap (fun x => x.word :: x.params)).all Pygcode.plainB &&
  (o.singles || ((Block.assertLoop [] [] befores).isOk && (Block.assertLoop [] [] afters).isOk)) &&
  decide (l.macro? = none) &&
  expandableB (m.processAll befores).1 g &&
  (match (m.processAll befores).1.pos with
    | .error _ => true
    | .ok p => (simplify fuel g p (planeOf (m.processAll befores).1) (m.processAll befores).1.incremental false
      (m.processAll befores).1.axes).1.all (fun c => (c.word :: c.params).all Pygcode.plainB))

theorem no_conflict_of_ok {gs : List GCode} (h : (Block.assertLoop [] [] gs).isOk = true) : ¬ Conflict gs := by
  rw [← assert_conflict]
  cases hx : Block.assertLoop [] [] gs with
  | ok u => rfl
  | error e => rw [hx] at h; cases h

theorem expandsB_sound {o : NormOpts} {fuel : ℕ} {m : Machine} {l : Line} {befores : List GCode} {g : GCode}
    {afters : List GCode} (h : expandsB o fuel m l befores g afters = true) : Expands o fuel m l befores g afters := by
  unfold expandsB at h
  simp only [Bool.and_eq_true, Bool.or_eq_true, decide_eq_true_eq] at h
  obtain ⟨⟨⟨⟨⟨⟨⟨h1, h2⟩, h3⟩, h4⟩, h5⟩, h6⟩, h7⟩, h8⟩ := h
  have hc : o.singles = false → (Block.assertLoop [] [] befores).isOk = true ∧ (Block.assertLoop [] [] afters).isOk = true := by
    intro hs
    rcases h5 with h5 | h5
    · rw [hs] at h5; cases h5
    · exact h5
  refine ⟨h1, fun w hw => plainB_sound (List.all_eq_true.1 h2 w hw), fun w hw => plainB_sound (List.all_eq_true.1 h3 w hw),
    fun w hw => plainB_sound (List.all_eq_true.1 h4 w hw), fun hs => no_conflict_of_ok (hc hs).1,
    fun hs => no_conflict_of_ok (hc hs).2, .inr (.inl h6), expandableB_sound h7, ?_⟩
  intro p hp c hcm w hw
  rw [hp] at h8
  exact plainB_sound (List.all_eq_true.1 (List.all_eq_true.1 h8 c hcm) w hw)

/-- The same for all lines. -/
def linesExpandB (o : NormOpts) (fuel : ℕ) (m : Machine) : List (List Char) → Bool
  | [] => true
  | t :: ts =>
    (match Line.ofText t with
      | .error _ => true
      | .ok l =>
        match m.blockModalGcodes l.block with
        | .error _ => true
        | .ok gs =>
          if o.cannedExpand && gs.any (fun g => decide (g.word ∈ o.cannedCodes)) then
            match splitGcodes gs .cannedCycle true with
            | (befores, [g], afters) => expandsB o fuel m l befores g afters
            | _ => true
          else if o.full then tidyB o l gs [] else tidyB o l l.block.gcodes l.block.modalParams) &&
      linesExpandB o fuel (m.processStr t).1 ts

theorem linesExpandB_sound {o : NormOpts} {fuel : ℕ} (ts : List (List Char)) :
    ∀ {m : Machine}, linesExpandB o fuel m ts = true → LinesExpand o fuel m ts := by
  induction ts with
  | nil => exact fun _ => trivial
  | cons t ts ih =>
    intro m h
    unfold linesExpandB at h
    rw [Bool.and_eq_true] at h
    refine ⟨?_, ih h.2⟩
    intro l gs hl hgs
    have h1 := h.1
    rw [hl] at h1
    simp only at h1
    rw [hgs] at h1
    simp only at h1
    split_ifs at h1 ⊢
    · intro befores g afters hsp
      rw [hsp] at h1
      exact expandsB_sound h1
    · exact tidyB_sound h1
    · exact tidyB_sound h1

/-- A program with cycles given in full, by left-over words, repeated and in incremental mode. -/
def expandSample : List (List Char) :=
  ["G17 G90 G21", "G0 X1 Y1 Z5", "M8 G81 X2 Y3 Z-1 R2 (drill)", "X4", "G80", "G1 X6 F100", "Y2",
    "G91 G83 X1 Y1 Z-3 R-2 Q1 L2", "G90 G0 X0"].map String.toList

/-- Expanding G81 and G83. -/
def expandOpts : NormOpts := { cannedExpand := true, cannedCodes := [⟨'G', .num 81⟩, ⟨'G', .num 83⟩] }

example : linesExpandB expandOpts 20 newNull expandSample = true ∧
    (expandOpts.loop 20 newNull expandSample).status = .done ∧
    linesExpandB { expandOpts with full := true, singles := true, rmWhitespace := true, rmBlanks := true } 20 newNull
      expandSample = true ∧
    (({ expandOpts with full := true, singles := true, rmWhitespace := true, rmBlanks := true } : NormOpts).loop 20 newNull
      expandSample).status = .done := by decide +kernel

/-- The theorem applies to it. -/
example : ∃ b, readLines newNull (expandOpts.loop 20 newNull expandSample).out = (b, none) ∧
    SameButMotion (expandOpts.loop 20 newNull expandSample).m b :=
  (C67_same_partial expandOpts rfl rfl rfl 20 newNull (reader_null xyz).sound rfl (Finset.Subset.refl _) expandSample
    (linesExpandB_sound _ (by decide +kernel)) (by decide +kernel)).2

/-- **C67** fails in G99 mode: the cycle leaves the tool at R, its expansion at the height before. -/
theorem C67_g99_refuted :
    ∃ ts : List (List Char), (readLines newNull ts).2 = none ∧
      (expandOpts.loop 20 newNull ts).status = .done ∧
      (readLines newNull (expandOpts.loop 20 newNull ts).out).2 = none ∧
      (expandOpts.loop 20 newNull ts).m.absPos.val .Z = 2 ∧
      (readLines newNull (expandOpts.loop 20 newNull ts).out).1.absPos.val .Z = 5 :=
  ⟨["G17 G90 G99", "G0 Z5", "G81 X2 Y3 Z-1 R2"].map String.toList, by decide +kernel⟩

/-- The motion mode may differ, as the cycle is not in what is printed. -/
theorem C67_motion_refuted :
    ∃ ts : List (List Char), (expandOpts.loop 20 newNull ts).status = .done ∧
      ((expandOpts.loop 20 newNull ts).m.mode.motion.map GCode.cls,
        (readLines newNull (expandOpts.loop 20 newNull ts).out).1.mode.motion.map GCode.cls) =
        (some .drillingCycle, some .rapidMove) :=
  ⟨["G17 G90", "G0 Z5", "G81 X2 Y3 Z-1 R2"].map String.toList, by decide +kernel⟩

end Pygcode
