import Verif.Lemmas.NearRead
import Verif.Props.NormExpand

/-!
# Displaced programs (C85)

A program executed from a displaced start, with the coordinate systems displaced too (or in incremental
mode), does the same, displaced.
-/

namespace Pygcode
open Props Machine Spec

/-- `b` is `a` with the position displaced by `d` and every coordinate system by `o`. -/
structure Displaced (d o : Axis → ℚ) (a b : Machine) : Prop where
  axes : b.axes = a.axes
  ignore : b.ignoreInvalid = a.ignoreInvalid
  mode : b.mode = a.mode
  cur : b.state.cur = a.state.cur
  offset : b.state.offset = a.state.offset
  systems : ∃ f g, a.state.systems = .dict f ∧ b.state.systems = .dict g ∧
    ∀ k, (g k).axes = (f k).axes ∧ (g k).unit = (f k).unit ∧ ∀ x, (g k).val x = (f k).val x + o x
  abs : b.absPos.axes = a.absPos.axes ∧ b.absPos.unit = a.absPos.unit ∧ ∀ x, b.absPos.val x = a.absPos.val x + d x
  lo : a.axes ⊆ b.rangeMin.axes ∧ ∀ x ∈ a.axes, b.rangeMin.val x = a.rangeMin.val x + d x
  hi : a.axes ⊆ b.rangeMax.axes ∧ ∀ x ∈ a.axes, b.rangeMax.val x = a.rangeMax.val x + d x

/-- The machine after a list of texts; exceptions do not stop it. -/
def afterTexts (m : Machine) (ts : List (List Char)) : Machine := ts.foldl (fun m t => (m.processStr t).1) m

variable {d o : Axis → ℚ}

/-- Both displacements are along the machine's axes. -/
structure Along (d o : Axis → ℚ) (m : Machine) : Prop where
  pos : ∀ x ∉ m.axes, d x = 0
  sys : ∀ x ∉ m.axes, o x = 0

theorem Displaced.wf {a b : Machine} (h : Displaced d o a b) (hx : Along d o a) (ha : a.WF) : b.WF where
  abs := by rw [h.abs.1, h.axes, ha.abs]
  absWF := fun x hxa => by
    rw [h.abs.1, ha.abs] at hxa
    rw [h.abs.2.2, abs_outside a ha x hxa, hx.pos x hxa, add_zero]
  sys := fun g hg k => by
    obtain ⟨f, g', hf, hg', hk⟩ := h.systems
    rw [hg] at hg'
    cases hg'
    refine ⟨by rw [(hk k).1, h.axes, (ha.sys f hf k).1], fun x hxa => ?_⟩
    rw [(hk k).1] at hxa
    rw [(hk k).2.2, (ha.sys f hf k).2 x hxa, hx.sys x (by rwa [(ha.sys f hf k).1] at hxa), add_zero]
  off := by rw [h.offset, h.axes, ha.off]
  offWF := by rw [h.offset]; exact ha.offWF
  lo := by rw [h.axes]; exact h.lo.1
  hi := by rw [h.axes]; exact h.hi.1

theorem Displaced.sysOff {a b : Machine} (h : Displaced d o a b) (hc : 1 ≤ a.state.cur ∧ a.state.cur ≤ 9) (x : Axis) :
    b.sysOff x = a.sysOff x + o x := by
  obtain ⟨f, g, hf, hg, hk⟩ := h.systems
  unfold Machine.sysOff
  rw [hf, hg, h.cur]
  simp only
  rw [if_pos hc, if_pos hc, (hk _).2.2]

theorem Displaced.good {a b : Machine} (h : Displaced d o a b) : ¬ a.BadSys ∧ ¬ b.BadSys := by
  obtain ⟨f, g, hf, hg, -⟩ := h.systems
  exact ⟨not_bad_of_dict hf, not_bad_of_dict hg⟩

theorem Displaced.goto {a b : Machine} (h : Displaced d o a b) {v w : Axis → ℚ} (hv : ∀ x, w x = v x + d x) :
    Displaced d o (a.goto v) (b.goto w) where
  axes := h.axes
  ignore := h.ignore
  mode := h.mode
  cur := h.cur
  offset := h.offset
  systems := h.systems
  abs := ⟨h.axes, h.abs.2.1, hv⟩
  lo := by
    refine ⟨Finset.subset_univ _, fun x hx => ?_⟩
    have hx' : x ∈ a.axes := hx
    simp only [Machine.goto, h.axes, hx', if_true, hv, h.lo.2 x hx']
    exact min_add_add_right _ _ _
  hi := by
    refine ⟨Finset.subset_univ _, fun x hx => ?_⟩
    have hx' : x ∈ a.axes := hx
    simp only [Machine.goto, h.axes, hx', if_true, hv, h.hi.2 x hx']
    exact max_add_add_right _ _ _

/-- The condition under which a move is displaced. -/
def Carried (d o : Axis → ℚ) (m : Machine) : Prop := d = o ∨ m.incremental = true

theorem Displaced.move {a b : Machine} (h : Displaced d o a b) (hx : Along d o a) (ha : a.WF)
    (hc : 1 ≤ a.state.cur ∧ a.state.cur ≤ 9) (hf : Carried d o a) (cs : Coords) :
    Displaced d o (a.move cs).1 (b.move cs).1 ∧ (b.move cs).2 = (a.move cs).2 := by
  have hb := h.wf hx ha
  obtain ⟨g1, g2⟩ := h.good
  have hinc : b.incremental = a.incremental := by unfold Machine.incremental; rw [h.mode]
  unfold Machine.move
  rw [pos_ok a ha g1, pos_ok b hb g2, hinc, h.axes]
  by_cases hi : a.incremental = true
  · simp only [hi, if_true]
    split_ifs with h1
    · exact ⟨h, rfl⟩
    · simp only [Position.add, Position.make, if_true]
      rw [setPos_mk a ha g1]
      have := setPos_mk b hb g2
      rw [h.axes] at this
      rw [this]
      refine ⟨h.goto (fun x => ?_), rfl⟩
      rw [h.abs.2.2, h.sysOff hc, h.offset]
      ring
  · have hdo : d = o := hf.resolve_right hi
    subst hdo
    have hp : (fun x => b.absPos.val x - b.sysOff x - b.state.offset.val x) =
        fun x => a.absPos.val x - a.sysOff x - a.state.offset.val x := by
      funext x
      rw [h.abs.2.2, h.sysOff hc, h.offset]
      ring
    rw [hp, h.abs.2.1]
    simp only [hi, Bool.false_eq_true, if_false]
    split_ifs with h1 h2
    · exact ⟨h, rfl⟩
    · exact ⟨h, rfl⟩
    · set p : Position := ⟨a.axes, a.absPos.unit, fun x => a.absPos.val x - a.sysOff x - a.state.offset.val x⟩
      obtain ⟨k1, k2, k3⟩ := update_keeps p (cs.filterMap (fun c => c.2.map (fun v => (c.1, v))))
      generalize p.update (cs.filterMap (fun c => c.2.map (fun v => (c.1, v)))) = r at *
      obtain ⟨q, _ | e⟩ := r
      · simp only at k1 k2 k3 ⊢
        rw [setPos_ok a ha g1 q k1 k2, setPos_ok b hb g2 q (by rw [h.axes, k1]) (by rw [h.abs.2.1, k2])]
        refine ⟨h.goto (fun x => ?_), rfl⟩
        rw [h.sysOff hc, h.offset]
        ring
      · exact ⟨h, rfl⟩

theorem move_same (m : Machine) (hm : m.WF) (cs : Coords) :
    (m.move cs).1.WF ∧ (m.move cs).1.axes = m.axes ∧ (m.move cs).1.state = m.state ∧ (m.move cs).1.mode = m.mode := by
  rcases move_cases m hm cs with ⟨v, hv, -, h⟩ | ⟨e, h⟩ <;> rw [h]
  · exact ⟨goto_wf m hm v hv, rfl, rfl, rfl⟩
  · exact ⟨hm, rfl, rfl, rfl⟩

theorem Displaced.moves (cs : Coords) (n : ℕ) : ∀ {a b : Machine}, Displaced d o a b → Along d o a → a.WF →
    1 ≤ a.state.cur ∧ a.state.cur ≤ 9 → Carried d o a →
    Displaced d o (a.moves cs n).1 (b.moves cs n).1 ∧ (b.moves cs n).2 = (a.moves cs n).2 := by
  induction n with
  | zero => exact fun h _ _ _ _ => ⟨h, rfl⟩
  | succ n ih =>
    intro a b h hx ha hc hf
    obtain ⟨h1, h2⟩ := h.move hx ha hc hf cs
    obtain ⟨w1, w2, w3, w4⟩ := move_same a ha cs
    unfold Machine.moves andThen
    generalize a.move cs = r at *
    generalize b.move cs = s at *
    obtain ⟨a', ea⟩ := r
    obtain ⟨b', eb⟩ := s
    simp only at h1 h2 w1 w2 w3 w4
    subst h2
    cases eb with
    | some e => exact ⟨h1, rfl⟩
    | none =>
      refine ih h1 ⟨by rw [w2]; exact hx.pos, by rw [w2]; exact hx.sys⟩ w1 (by rw [w3]; exact hc) ?_
      unfold Carried Machine.incremental at *
      rw [w4]
      exact hf

theorem Displaced.effect {a b : Machine} (h : Displaced d o a b) (hx : Along d o a) (ha : a.WF)
    (hc : 1 ≤ a.state.cur ∧ a.state.cur ≤ 9) (hf : Carried d o a) (g : GCode) :
    Displaced d o (a.effect g).1 (b.effect g).1 ∧ (b.effect g).2 = (a.effect g).2 := by
  have hcc : b.cannedCoords g = a.cannedCoords g := by
    unfold cannedCoords
    rw [h.axes, h.mode]
  unfold Machine.effect
  rw [hcc, h.axes]
  cases g.cls.proc with
  | nothing => exact ⟨h, rfl⟩
  | motion => exact h.move hx ha hc hf _
  | rapid => exact h.move hx ha hc hf _
  | cancel =>
    exact ⟨⟨rfl, h.ignore, by simp only [h.mode], h.cur, h.offset, h.systems, h.abs, h.lo, h.hi⟩, rfl⟩
  | canned =>
    simp only
    cases a.cannedCoords g with
    | error e => exact ⟨h, rfl⟩
    | ok cs =>
      simp only
      cases loopCount g with
      | error e => exact ⟨h, rfl⟩
      | ok n => exact h.moves cs n hx ha hc hf

theorem Displaced.withMode {a b : Machine} (h : Displaced d o a b) (md : Mode) :
    Displaced d o (a.withMode md) (b.withMode md) where
  axes := h.axes
  ignore := h.ignore
  mode := rfl
  cur := by
    unfold Machine.withMode
    simp only
    cases md.coordSystem with
    | none => exact h.cur
    | some g => rfl
  offset := h.offset
  systems := h.systems
  abs := h.abs
  lo := h.lo
  hi := h.hi

/-- What the displacement needs of a machine. -/
structure Steady (d o : Axis → ℚ) (m : Machine) : Prop where
  sound : Sound m
  along : Along d o m
  cur : 1 ≤ m.state.cur ∧ m.state.cur ≤ 9
  follows : Carried d o m

/-- Not G90, if that matters. -/
def Fits (d o : Axis → ℚ) (g : GCode) : Prop := d = o ∨ g.cls ≠ .absoluteDistanceMode

theorem distance_table (c : Cls) (h : c.group = some 3) (hn : c ≠ .absoluteDistanceMode) (hl : classLetters c ≠ []) :
    c.isSub .incrementalDistanceMode = true := by
  have := Cls.forall_of_all (p := fun c => !(c.group == some 3) || c == .absoluteDistanceMode ||
    (classLetters c).isEmpty || c.isSub .incrementalDistanceMode) (by decide +kernel) c
  simpa [h, hn, hl] using this

theorem system_table (c : Cls) (h : c.group = some 12) (hl : classLetters c ≠ []) :
    1 ≤ c.coordSys.getD 0 ∧ c.coordSys.getD 0 ≤ 9 := by
  have := Cls.forall_of_all (p := fun c => !(c.group == some 12) || (classLetters c).isEmpty ||
    (decide (1 ≤ c.coordSys.getD 0) && decide (c.coordSys.getD 0 ≤ 9))) (by decide +kernel) c
  simpa [h, hl] using this

theorem named_letters {g : GCode} (h : Named g) : classLetters g.cls ≠ [] := by
  intro hn
  have := wordClass_letter h
  rw [hn] at this
  cases this

theorem Displaced.process {a b : Machine} (h : Displaced d o a b) (ha : Steady d o a) (g : GCode) (hg : GOK g)
    (hn : Named g) (hq : Fits d o g) :
    Displaced d o (a.process g).1 (b.process g).1 ∧ (b.process g).2 = (a.process g).2 ∧ Steady d o (a.process g).1 := by
  have hs := ha.sound.process g hg hn
  have hax : (a.process g).1.axes = a.axes := (path_process a ha.sound.wf g hg).frame.axes
  rw [process_eq a g hg] at hs hax ⊢
  rw [process_eq b g hg, h.mode]
  have hw := withMode_wf a ha.sound.wf (setIn a.mode g)
  have hcur : 1 ≤ (a.withMode (setIn a.mode g)).state.cur ∧ (a.withMode (setIn a.mode g)).state.cur ≤ 9 := by
    have h12 := setIn_all Named (fun _ h => h) a.mode ha.sound.named g hn 12
    have hok := setIn_ok a.mode ha.sound.ok g hg 12
    unfold Machine.withMode Mode.coordSystem
    simp only
    cases hx : setIn a.mode g 12 with
    | none => exact ha.cur
    | some x => exact system_table x.cls (hok x hx).1 (named_letters (h12 x hx))
  have hfol : Carried d o (a.withMode (setIn a.mode g)) := by
    rcases hq with hq | hq
    · exact .inl hq
    rcases ha.follows with hf | hf
    · exact .inl hf
    · right
      unfold Machine.incremental Mode.distance Machine.withMode setIn at *
      simp only
      cases hgr : g.cls.group with
      | none => exact hf
      | some k =>
        simp only
        by_cases hk : k = 3
        · subst hk
          rw [Function.update_self]
          exact distance_table g.cls hgr hq (named_letters hn)
        · rw [Function.update_of_ne (fun h => hk h.symm)]
          exact hf
  obtain ⟨h1, h2⟩ := (h.withMode (setIn a.mode g)).effect ⟨ha.along.pos, ha.along.sys⟩ hw hcur hfol g
  refine ⟨h1, h2, hs, ⟨by rw [hax]; exact ha.along.pos, by rw [hax]; exact ha.along.sys⟩, ?_, ?_⟩
  · rw [(effect_mode _ hw g).2]
    exact hcur
  · unfold Carried Machine.incremental Mode.distance at *
    rcases (effect_mode _ hw g).1 with he | he <;> rw [he]
    · exact hfol
    · rw [Function.update_of_ne (by decide)]
      exact hfol

theorem Displaced.all {gs : List GCode} : ∀ {a b : Machine}, Displaced d o a b → Steady d o a →
    (∀ g ∈ gs, GOK g ∧ Named g ∧ Fits d o g) →
    Displaced d o (a.processAll gs).1 (b.processAll gs).1 ∧ (b.processAll gs).2 = (a.processAll gs).2 ∧
      Steady d o (a.processAll gs).1 := by
  induction gs with
  | nil => exact fun h ha _ => ⟨h, rfl, ha⟩
  | cons g gs ih =>
    intro a b h ha hg
    obtain ⟨g1, g2, g3⟩ := hg g List.mem_cons_self
    obtain ⟨h1, h2, h3⟩ := h.process ha g g1 g2 g3
    rw [processAll, processAll]
    unfold andThen
    generalize a.process g = r at *
    generalize b.process g = s at *
    obtain ⟨a', ea⟩ := r
    obtain ⟨b', eb⟩ := s
    simp only at h1 h2 h3
    subst h2
    cases eb with
    | some e => exact ⟨h1, rfl, h3⟩
    | none => exact ih h1 h3 (fun x hx => hg x (List.mem_cons_of_mem _ hx))

/-- The text has no G90, if that matters. -/
def TextFits (d o : Axis → ℚ) (t : List Char) : Prop :=
  d = o ∨ ∀ l, Line.ofText t = .ok l → ∀ g ∈ l.block.gcodes, g.cls ≠ .absoluteDistanceMode

theorem Displaced.str {a b : Machine} (h : Displaced d o a b) (ha : Steady d o a) (t : List Char) (ht : TextFits d o t) :
    Displaced d o (a.processStr t).1 (b.processStr t).1 ∧ (b.processStr t).2 = (a.processStr t).2 ∧
      Steady d o (a.processStr t).1 := by
  unfold processStr
  cases hl : Line.ofText t with
  | error e => exact ⟨h, rfl, ha⟩
  | ok l =>
    have hb := line_block_ok hl
    have hq : ∀ g ∈ l.block.gcodes, Fits d o g := fun g hg => ht.imp id (fun h => h l hl g hg)
    simp only
    unfold processBlock processGcodes
    have hmo : b.modalGcode l.block.modalParams = a.modalGcode l.block.modalParams := by
      unfold modalGcode
      rw [h.mode, h.ignore]
    rw [hmo]
    cases hog : a.modalGcode l.block.modalParams with
    | error e => exact ⟨h, rfl, ha⟩
    | ok og =>
      refine h.all ha ?_
      intro g hg
      rcases List.mem_append.1 ((List.perm_insertionSort _ _).mem_iff.1 hg) with hg | hg
      · exact ⟨hb.ok g hg, hb.cls g hg, hq g hg⟩
      · have hgo : og = some g := by simpa using hg
        subst hgo
        have hgok := modalGcode_gok hog
        by_cases hne : l.block.modalParams = []
        · rw [hne] at hog; cases hog
        cases hx : a.mode.motion with
        | none =>
          unfold modalGcode at hog
          rw [if_neg hne, hx] at hog
          simp only at hog
          split_ifs at hog
          cases hog
        | some x =>
          rw [modalGcode_closed a x hx (ha.sound.ok 1 x hx).2.1 (ha.sound.named 1 x hx) _ hne hb.unused] at hog
          split_ifs at hog
          cases hog
          refine ⟨hgok, ha.sound.named 1 x hx, .inr ?_⟩
          intro hc
          have hgr := (ha.sound.ok 1 x hx).1
          rw [show x.cls = .absoluteDistanceMode from hc] at hgr
          revert hgr
          decide +kernel

theorem Displaced.texts (ts : List (List Char)) : ∀ {a b : Machine}, Displaced d o a b → Steady d o a →
    (∀ t ∈ ts, TextFits d o t) →
    Displaced d o (afterTexts a ts) (afterTexts b ts) ∧ Steady d o (afterTexts a ts) := by
  induction ts with
  | nil => exact fun h ha _ => ⟨h, ha⟩
  | cons t ts ih =>
    intro a b h ha ht
    obtain ⟨h1, -, h3⟩ := h.str ha t (ht t List.mem_cons_self)
    exact ih h1 h3 (fun t' ht' => ht t' (List.mem_cons_of_mem _ ht'))

/-- **C85** (coordinate systems): displacing the start and all coordinate systems by `d` displaces the whole
program by `d`: after any texts, the next text raises the same exception, the mode and the work position
are the same and the absolute position and range are displaced by `d`. -/
theorem C85_systems {a b : Machine} (ha : Sound a) (hc : 1 ≤ a.state.cur ∧ a.state.cur ≤ 9)
    (hd : ∀ x ∉ a.axes, d x = 0) (h : Displaced d d a b) (ts : List (List Char)) (t : List Char) :
    ((afterTexts b ts).processStr t).2 = ((afterTexts a ts).processStr t).2 ∧
    (afterTexts b ts).mode = (afterTexts a ts).mode ∧
    (afterTexts b ts).pos = (afterTexts a ts).pos ∧
    (∀ x, (afterTexts b ts).absPos.val x = (afterTexts a ts).absPos.val x + d x) ∧
    ∀ x ∈ a.axes, (afterTexts b ts).rangeMin.val x = (afterTexts a ts).rangeMin.val x + d x ∧
      (afterTexts b ts).rangeMax.val x = (afterTexts a ts).rangeMax.val x + d x := by
  obtain ⟨h1, h2⟩ := h.texts ts ⟨ha, ⟨hd, hd⟩, hc, .inl rfl⟩ (fun _ _ => .inl rfl)
  obtain ⟨-, h3, -⟩ := h1.str h2 t (.inl rfl)
  refine ⟨h3, h1.mode, ?_, h1.abs.2.2, ?_⟩
  · rw [pos_ok _ (h1.wf h2.along h2.sound.wf) h1.good.2, pos_ok _ h2.sound.wf h1.good.1, h1.axes, h1.abs.2.1, h1.offset]
    congr 2
    funext x
    rw [h1.abs.2.2, h1.sysOff h2.cur]
    ring
  · intro x hx
    have hax : (afterTexts a ts).axes = a.axes := by
      clear h1 h2 h3 h hc
      induction ts generalizing a with
      | nil => rfl
      | cons t ts ih =>
        have he : (a.processStr t).1.axes = a.axes := congrArg Prod.fst (str_frozen ha.wf t)
        exact (ih (ha.str t) (by rw [he]; exact hd) (by rw [he]; exact hx)).trans he
    exact ⟨h1.lo.2 x (by rw [hax]; exact hx), h1.hi.2 x (by rw [hax]; exact hx)⟩

/-- **C85** (incremental): in incremental mode, without G90, displacing the start alone displaces the whole
program. -/
theorem C85_incremental {a b : Machine} (ha : Sound a) (hc : 1 ≤ a.state.cur ∧ a.state.cur ≤ 9)
    (hi : a.incremental = true) (hd : ∀ x ∉ a.axes, d x = 0) (h : Displaced d 0 a b) (ts : List (List Char))
    (hts : ∀ t ∈ ts, ∀ l, Line.ofText t = .ok l → ∀ g ∈ l.block.gcodes, g.cls ≠ .absoluteDistanceMode) (n : ℕ) :
    (∀ t, ts[n]? = some t →
      ((afterTexts b (ts.take n)).processStr t).2 = ((afterTexts a (ts.take n)).processStr t).2) ∧
    (afterTexts b (ts.take n)).mode = (afterTexts a (ts.take n)).mode ∧
    ∀ x, (afterTexts b (ts.take n)).absPos.val x = (afterTexts a (ts.take n)).absPos.val x + d x := by
  obtain ⟨h1, h2⟩ := h.texts (ts.take n) ⟨ha, ⟨hd, fun _ _ => rfl⟩, hc, .inr hi⟩
    (fun t ht => .inr (hts t (List.mem_of_mem_take ht)))
  refine ⟨fun t ht => ?_, h1.mode, h1.abs.2.2⟩
  exact (h1.str h2 t (.inr (hts t (List.mem_of_getElem? ht)))).2.1

/-! ## Cases -/

/-- 10 along X, -2 along Z -/
def instShift (x : Axis) : ℚ := if x = .X then 10 else if x = .Z then -2 else 0

/-- A new machine at the displacement, with the coordinate systems displaced by `o`. -/
def shiftedNull (o : Axis → ℚ) : Machine :=
  { newNull with
    state := { newNull.state with systems := .dict (fun _ => ⟨xyz, .mm, o⟩) }
    absPos := ⟨xyz, .mm, instShift⟩, rangeMin := ⟨xyz, .mm, instShift⟩, rangeMax := ⟨xyz, .mm, instShift⟩ }

theorem shiftedNull_displaced (o : Axis → ℚ) : Displaced instShift o newNull (shiftedNull o) where
  axes := rfl
  ignore := rfl
  mode := rfl
  cur := rfl
  offset := rfl
  systems := ⟨_, _, rfl, rfl, fun _ => ⟨rfl, rfl, fun x => (zero_add (o x)).symm⟩⟩
  abs := ⟨rfl, rfl, fun x => (zero_add (instShift x)).symm⟩
  lo := ⟨subset_rfl, fun x _ => (zero_add (instShift x)).symm⟩
  hi := ⟨subset_rfl, fun x _ => (zero_add (instShift x)).symm⟩

/-- G91 first -/
def shiftTexts : List (List Char) :=
  ["G91 G0 X1 Y2".toList, "G1 Z-3 F10".toList, "X".toList, "G17 G98 G81 X1 Z-1 R1 L3".toList, "Y-1".toList]

example := C85_systems (reader_null xyz).sound ⟨le_rfl, by decide⟩ (d := instShift) (by decide)
  (shiftedNull_displaced instShift) shiftTexts "G90 G1 X5".toList
example : ((afterTexts newNull shiftTexts).absPos.val .X, (afterTexts newNull shiftTexts).absPos.val .Z) = (5, -3) ∧
    ((afterTexts (shiftedNull instShift) shiftTexts).absPos.val .X,
      (afterTexts (shiftedNull instShift) shiftTexts).absPos.val .Z) = (15, -5) ∧
    ((afterTexts (shiftedNull instShift) shiftTexts).processStr "G90 G1 X5".toList).1.absPos.val .X = 15 ∧
    ((afterTexts (shiftedNull 0) shiftTexts).processStr "G90 G1 X5".toList).1.absPos.val .X = 5 := by decide +kernel

theorem shift_no_abs : ∀ t ∈ shiftTexts.tail, ∀ l, Line.ofText t = .ok l →
    ∀ g ∈ l.block.gcodes, g.cls ≠ .absoluteDistanceMode := by
  have h : ∀ t ∈ shiftTexts.tail, (match Line.ofText t with
    | .ok l => l.block.gcodes.all (fun g => g.cls != .absoluteDistanceMode)
    | .error _ => true) = true := by decide +kernel
  intro t ht l hl g hg
  have := h t ht
  rw [hl] at this
  simpa using List.all_eq_true.1 this g hg

/-- G91 -/
def incrementalCode : GCode := ⟨.incrementalDistanceMode, ⟨'G', .num 91⟩, [], false⟩

theorem incremental_sound : Sound (newNull.withMode (setIn newNull.mode incrementalCode)) := by
  have hg : GOK incrementalCode := ⟨by decide +kernel, by decide +kernel⟩
  have := (reader_null xyz).sound.process incrementalCode hg (by unfold Named; decide +kernel)
  rw [process_eq _ _ hg] at this
  exact this

example := C85_incremental incremental_sound ⟨le_rfl, by decide⟩ (by decide +kernel) (d := instShift) (by decide)
  ((shiftedNull_displaced 0).withMode _) shiftTexts.tail shift_no_abs 3

end Pygcode
