import Verif.Props.StartMode
import Verif.Props.NormOutcome
import Verif.Props.Shift

/-!
# C104: what depends on the mode only

Which lines fail, the modes, and what pygcode-norm prints without `--canned_expand` and `--arc_linearize` do not
depend on positions and offsets. So a file can be normalized in pieces.
-/

namespace Pygcode
open Props Machine Spec

/-! ## Machines with the same mode -/

/-- Machines with the same axes, the same mode and the same `ignore_invalid_modal`; their positions, offsets,
coordinate systems and ranges may be different. -/
structure EqMode (a b : Machine) : Prop where
  axes : a.axes = b.axes
  ignore : a.ignoreInvalid = b.ignoreInvalid
  mode : a.mode = b.mode

/-- A machine that was not copied. -/
structure Usual (m : Machine) : Prop where
  wf : m.WF
  dict : ∃ f, m.state.systems = .dict f

theorem Usual.good {m : Machine} (h : Usual m) : ¬ m.BadSys := by
  obtain ⟨f, hf⟩ := h.dict
  intro hb
  rw [hb.1] at hf
  cases hf

theorem EqMode.refl (a : Machine) : EqMode a a := ⟨rfl, rfl, rfl⟩

theorem EqMode.incremental {a b : Machine} (h : EqMode a b) : a.incremental = b.incremental := by
  unfold Machine.incremental; rw [h.mode]

theorem update_done (cs : List (Axis × ℚ)) : ∀ (p : Position), (∀ c ∈ cs, c.1 ∈ p.axes) → (p.update cs).2 = none := by
  induction cs with
  | nil => exact fun _ _ => rfl
  | cons c cs ih =>
    intro p h
    unfold Position.update Position.set
    simp only [h c (by simp), if_true]
    exact ih _ (fun d hd => h d (by simp [hd]))

/-- How a move ends. -/
theorem move_end {m : Machine} (hm : Usual m) (cs : Coords) :
    (m.move cs).2 = if m.incremental then
        if (cs.filter (fun c => decide (c.1 ∈ m.axes))).any (fun c => c.2.isNone) then some .type else none
      else if cs.any (fun c => decide (c.1 ∉ m.axes)) then some .invalidAxis
      else if cs.any (fun c => c.2.isNone) then some .type else none := by
  unfold move
  rw [pos_ok m hm.wf hm.good]
  by_cases hi : m.incremental = true
  · simp only [hi, if_true]
    by_cases h1 : (cs.filter (fun c => decide (c.1 ∈ m.axes))).any (fun c => c.2.isNone) = true
    · rw [if_pos h1, if_pos h1]
    · rw [if_neg h1, if_neg h1]
      simp only [Position.add, Position.make, if_true]
      rw [setPos_mk m hm.wf hm.good]
  · simp only [hi, Bool.false_eq_true, if_false]
    by_cases h1 : cs.any (fun c => decide (c.1 ∉ m.axes)) = true
    · rw [if_pos h1, if_pos h1]
    · rw [if_neg h1, if_neg h1]
      by_cases h2 : cs.any (fun c => c.2.isNone) = true
      · rw [if_pos h2, if_pos h2]
      · rw [if_neg h2, if_neg h2]
        set p : Position := ⟨m.axes, m.absPos.unit, fun a => m.absPos.val a - m.sysOff a - m.state.offset.val a⟩ with hp
        obtain ⟨k1, k2, -⟩ := update_keeps p (cs.filterMap (fun c => c.2.map (fun v => (c.1, v))))
        have k3 := update_done (cs.filterMap (fun c => c.2.map (fun v => (c.1, v)))) p (by
          intro c hc
          obtain ⟨d, hd, he⟩ := List.mem_filterMap.1 hc
          obtain ⟨v, -, rfl⟩ := Option.map_eq_some_iff.1 he
          by_contra hx
          exact h1 (List.any_eq_true.2 ⟨d, hd, by simpa using hx⟩))
        generalize p.update (cs.filterMap (fun c => c.2.map (fun v => (c.1, v)))) = r at *
        obtain ⟨q, e⟩ := r
        simp only at k1 k2 k3 ⊢
        subst k3
        simp only
        rw [setPos_ok m hm.wf hm.good q k1 k2]

theorem move_axes (m : Machine) (hm : m.WF) (cs : Coords) : (m.move cs).1.axes = m.axes ∧
    (m.move cs).1.ignoreInvalid = m.ignoreInvalid ∧ (m.move cs).1.mode = m.mode ∧ (m.move cs).1.state = m.state := by
  rcases move_cases m hm cs with ⟨v, -, -, h⟩ | ⟨e, h⟩ <;> rw [h] <;> exact ⟨rfl, rfl, rfl, rfl⟩

/-- Outcomes of the same kind. -/
def EqEnd (r s : MRes) : Prop := EqMode r.1 s.1 ∧ r.2 = s.2 ∧ Usual r.1 ∧ Usual s.1

theorem move_eqMode {a b : Machine} (h : EqMode a b) (ha : Usual a) (hb : Usual b) (cs : Coords) :
    EqEnd (a.move cs) (b.move cs) := by
  obtain ⟨a1, a2, a3, a4⟩ := move_axes a ha.wf cs
  obtain ⟨b1, b2, b3, b4⟩ := move_axes b hb.wf cs
  refine ⟨⟨by rw [a1, b1, h.axes], by rw [a2, b2, h.ignore], by rw [a3, b3, h.mode]⟩, ?_,
    ⟨move_wf a ha.wf cs, by rw [a4]; exact ha.dict⟩, ⟨move_wf b hb.wf cs, by rw [b4]; exact hb.dict⟩⟩
  rw [move_end ha, move_end hb, h.incremental, h.axes]

theorem EqEnd.andThen {r s : MRes} (h : EqEnd r s) {f g : Machine → MRes}
    (hf : ∀ a b, EqMode a b → Usual a → Usual b → EqEnd (f a) (g b)) :
    EqEnd (Machine.andThen r f) (Machine.andThen s g) := by
  obtain ⟨r, er⟩ := r
  obtain ⟨s, es⟩ := s
  obtain ⟨h1, h2, h3, h4⟩ := h
  simp only at h1 h2 h3 h4
  subst h2
  cases er with
  | none => exact hf r s h1 h3 h4
  | some e => exact ⟨h1, rfl, h3, h4⟩

theorem moves_eqMode (cs : Coords) (n : ℕ) : ∀ {a b : Machine}, EqMode a b → Usual a → Usual b →
    EqEnd (a.moves cs n) (b.moves cs n) := by
  induction n with
  | zero => exact fun h ha hb => ⟨h, rfl, ha, hb⟩
  | succ n ih =>
    intro a b h ha hb
    exact (move_eqMode h ha hb cs).andThen (fun a b h ha hb => ih h ha hb)

theorem withMode_usual {m : Machine} (h : Usual m) (md : Mode) : Usual (m.withMode md) :=
  ⟨withMode_wf m h.wf md, h.dict⟩

theorem effect_eqMode {a b : Machine} (h : EqMode a b) (ha : Usual a) (hb : Usual b) (g : GCode) :
    EqEnd (a.effect g) (b.effect g) := by
  unfold Machine.effect
  have hc : a.cannedCoords g = b.cannedCoords g := by unfold cannedCoords; rw [h.axes, h.mode]
  have hco : coords a.axes g = coords b.axes g := by rw [h.axes]
  rw [hco, hc]
  cases g.cls.proc with
  | nothing => exact ⟨h, rfl, ha, hb⟩
  | motion => exact move_eqMode h ha hb _
  | rapid => exact move_eqMode h ha hb _
  | cancel =>
    refine ⟨⟨h.axes, h.ignore, by simp only [h.mode]⟩, rfl, ⟨?_, ha.dict⟩, ⟨?_, hb.dict⟩⟩
    · exact ⟨ha.wf.1, ha.wf.2, ha.wf.3, ha.wf.4, ha.wf.5, ha.wf.6, ha.wf.7⟩
    · exact ⟨hb.wf.1, hb.wf.2, hb.wf.3, hb.wf.4, hb.wf.5, hb.wf.6, hb.wf.7⟩
  | canned =>
    simp only
    cases b.cannedCoords g with
    | error e => exact ⟨h, rfl, ha, hb⟩
    | ok cs =>
      simp only
      cases loopCount g with
      | error e => exact ⟨h, rfl, ha, hb⟩
      | ok n => exact moves_eqMode cs n h ha hb

theorem process_eqMode {a b : Machine} (h : EqMode a b) (ha : Usual a) (hb : Usual b) (g : GCode) (hg : GOK g) :
    EqEnd (a.process g) (b.process g) := by
  rw [process_eq a g hg, process_eq b g hg]
  have h1 : EqMode (a.withMode (setIn a.mode g)) (b.withMode (setIn b.mode g)) :=
    ⟨h.axes, h.ignore, congrArg (fun md => setIn md g) h.mode⟩
  exact effect_eqMode h1 (withMode_usual ha _) (withMode_usual hb _) g

theorem processAll_eqMode (gs : List GCode) (hg : ∀ g ∈ gs, GOK g) : ∀ {a b : Machine}, EqMode a b → Usual a → Usual b →
    EqEnd (a.processAll gs) (b.processAll gs) := by
  induction gs with
  | nil => exact fun h ha hb => ⟨h, rfl, ha, hb⟩
  | cons g gs ih =>
    intro a b h ha hb
    exact (process_eqMode h ha hb g (hg g (by simp))).andThen
      (fun a b h ha hb => ih (fun x hx => hg x (by simp [hx])) h ha hb)

theorem modalGcode_eqMode {a b : Machine} (h : EqMode a b) (mp : List Word) : a.modalGcode mp = b.modalGcode mp := by
  unfold modalGcode; rw [h.mode, h.ignore]

theorem processBlock_eqMode {a b : Machine} (h : EqMode a b) (ha : Usual a) (hb : Usual b) (bl : Block)
    (hg : ∀ g ∈ bl.gcodes, GOK g) : EqEnd (a.processBlock bl) (b.processBlock bl) := by
  unfold processBlock processGcodes
  rw [modalGcode_eqMode h]
  cases hm : b.modalGcode bl.modalParams with
  | error e => exact ⟨h, rfl, ha, hb⟩
  | ok og => exact processAll_eqMode _ (sort_gok hg (fun g hog => modalGcode_gok (by rw [hm, hog]))) h ha hb

theorem processStr_eqMode {a b : Machine} (h : EqMode a b) (ha : Usual a) (hb : Usual b) (t : List Char) :
    EqEnd (a.processStr t) (b.processStr t) := by
  unfold processStr
  cases hl : Line.ofText t with
  | error e => exact ⟨h, rfl, ha, hb⟩
  | ok l => exact processBlock_eqMode h ha hb l.block (line_gok hl)

theorem afterTexts_eqMode (ts : List (List Char)) : ∀ {a b : Machine}, EqMode a b → Usual a → Usual b →
    EqMode (afterTexts a ts) (afterTexts b ts) ∧ Usual (afterTexts a ts) ∧ Usual (afterTexts b ts) := by
  induction ts with
  | nil => exact fun h ha hb => ⟨h, ha, hb⟩
  | cons t ts ih =>
    intro a b h ha hb
    obtain ⟨h1, -, h3, h4⟩ := processStr_eqMode h ha hb t
    exact ih h1 h3 h4

/-- **C104**: of two machines with the same mode that have processed the same texts, both raise the same
exception for the next text or none, and both have the same mode, wherever they are. -/
theorem C104_machine {a b : Machine} (ha : Sound a) (hb : Sound b) (hax : a.axes = b.axes)
    (hi : a.ignoreInvalid = b.ignoreInvalid) (hm : a.mode = b.mode) (ts : List (List Char)) (t : List Char) :
    ((afterTexts a ts).processStr t).2 = ((afterTexts b ts).processStr t).2 ∧
      (afterTexts a ts).mode = (afterTexts b ts).mode := by
  obtain ⟨h1, h2, h3⟩ := afterTexts_eqMode ts ⟨hax, hi, hm⟩ ⟨ha.wf, ha.dict⟩ ⟨hb.wf, hb.dict⟩
  exact ⟨(processStr_eqMode h1 h2 h3 t).2.1, h1.mode⟩

/-! ## What is printed -/

theorem str_same {g g' : GCode} (h : SameGCode g g') (hg : GOK g) (hw : g.ws = g'.ws) : g.str = g'.str := by
  have hs : g.sortedParams = g'.sortedParams := by
    have hp : g.sortedParams.Perm g'.sortedParams :=
      (sortedParams_perm g).trans (h.2.2.trans (sortedParams_perm g').symm)
    have hn : (g.sortedParams.map Word.letter).Nodup := (((sortedParams_perm g).map _).nodup_iff).2 hg.1
    refine hp.eq_of_pairwise (le := fun a b : Word => a.letter.toNat ≤ b.letter.toNat) ?_ ?_ ?_
    · intro x y hx hy h1 h2
      have hl : x.letter = y.letter := Char.toNat_inj.1 (le_antisymm h1 h2)
      exact List.inj_on_of_nodup_map hn hx (hp.mem_iff.2 hy) hl
    · exact List.pairwise_insertionSort _ _
    · exact List.pairwise_insertionSort _ _
  unfold GCode.str
  rw [hs, hw, h.2.1]

theorem lineText_same (o : NormOpts) {gs gs' : List GCode} (h : List.Forall₂ (fun g g' => SameGCode g g' ∧ g.str = g'.str) gs gs')
    (mp : List Word) (c : Option Comment) (mac : Option (List Char)) :
    o.lineText gs mp c mac = o.lineText gs' mp c mac := by
  have key : ((if o.rmGcodes = [] then gs else gs.filter (fun g => decide (g.word ∉ o.rmGcodes)))).map GCode.str =
      ((if o.rmGcodes = [] then gs' else gs'.filter (fun g => decide (g.word ∉ o.rmGcodes)))).map GCode.str := by
    split_ifs
    · induction h with
      | nil => rfl
      | cons h1 _ ih => rw [List.map_cons, List.map_cons, h1.2, ih]
    · induction h with
      | nil => rfl
      | @cons g g' gs gs' h1 _ ih =>
        rw [List.filter_cons, List.filter_cons, h1.1.2.1]
        split_ifs
        · rw [List.map_cons, List.map_cons, h1.2, ih]
        · exact ih
  unfold NormOpts.lineText
  simp only
  rw [key]

theorem write_same (o : NormOpts) {gs gs' : List GCode} (h : List.Forall₂ (fun g g' => SameGCode g g' ∧ g.str = g'.str) gs gs')
    (mp : List Word) (c : Option Comment) (mac : Option (List Char)) :
    o.write gs mp c mac = o.write gs' mp c mac := by
  have hone : ∀ {gs gs' : List GCode}, List.Forall₂ (fun g g' => SameGCode g g' ∧ g.str = g'.str) gs gs' →
      ∀ mp c mac, o.writeOne gs mp c mac = o.writeOne gs' mp c mac := by
    intro gs gs' h mp c mac
    unfold NormOpts.writeOne
    rw [lineText_same o h]
  have hsort : List.Forall₂ (fun g g' => SameGCode g g' ∧ g.str = g'.str) (execSort gs) (execSort gs') := by
    have hins : ∀ {g g' : GCode} {gs gs' : List GCode}, (SameGCode g g' ∧ g.str = g'.str) →
        List.Forall₂ (fun g g' => SameGCode g g' ∧ g.str = g'.str) gs gs' →
        List.Forall₂ (fun g g' => SameGCode g g' ∧ g.str = g'.str)
          (gs.orderedInsert (fun a b => a.cls.order ≤ b.cls.order) g)
          (gs'.orderedInsert (fun a b => a.cls.order ≤ b.cls.order) g') := by
      intro g g' gs gs' hg h
      induction h with
      | nil => exact .cons hg .nil
      | @cons x x' xs xs' h1 h2 ih =>
        rw [List.orderedInsert_cons, List.orderedInsert_cons, hg.1.1, h1.1.1]
        split_ifs
        · exact .cons hg (.cons h1 h2)
        · exact .cons h1 ih
    induction h with
    | nil => exact .nil
    | cons h1 _ ih => exact hins h1 ih
  unfold NormOpts.write
  rw [h.length_eq]
  split_ifs
  · rfl
  · congr 1
    clear h
    generalize execSort gs = xs at hsort
    generalize execSort gs' = ys at hsort
    induction hsort with
    | nil => rfl
    | cons h1 _ ih => rw [List.flatMap_cons, List.flatMap_cons, ih, hone (.cons h1 .nil)]
  · rw [hone h]

/-- Machines with the same axes, the same `ignore_invalid_modal`, and modes that are the same up to the order in
which gcodes list their parameters. -/
structure RelMode (a b : Machine) : Prop where
  axes : a.axes = b.axes
  ignore : a.ignoreInvalid = b.ignoreInvalid
  mode : ∀ k, Option.Rel SameGCode (a.mode k) (b.mode k)

/-- A machine that was not copied, with the given axes and `ignore_invalid_modal`, and gcodes in its mode that are
what their words say. -/
structure Plainly (x : Finset Axis × Bool) (m : Machine) : Prop where
  usual : Usual m
  fixed : (m.axes, m.ignoreInvalid) = x
  ok : ModeOK m.mode
  named : ModeAll Named m.mode

variable {x : Finset Axis × Bool}

theorem Plainly.process {m : Machine} (h : Plainly x m) (g : GCode) (hg : GOK g) (hn : Named g) :
    Plainly x (m.process g).1 :=
  ⟨⟨(path_process m h.usual.wf g hg).wf h.usual.wf, by rw [process_systems m h.usual.wf g hg]; exact h.usual.dict⟩,
    by have := process_frozen m h.usual.wf g hg; rw [← h.fixed]; exact congrArg (fun y => (y.1, y.2.1)) this,
    kept_ok.process m h.usual.wf g hg trivial h.ok, kept_named.process m h.usual.wf g hg hn h.named⟩

theorem Plainly.all {gs : List GCode} (hg : ∀ g ∈ gs, GOK g) (hn : ∀ g ∈ gs, Named g) :
    ∀ {m : Machine}, Plainly x m → Plainly x (m.processAll gs).1 := by
  induction gs with
  | nil => exact fun h => h
  | cons g gs ih =>
    intro m h
    have h1 := h.process g (hg g (by simp)) (hn g (by simp))
    unfold processAll Machine.andThen
    rcases hpr : m.process g with ⟨m', _ | e⟩
    · rw [hpr] at h1
      exact ih (fun x hx => hg x (by simp [hx])) (fun x hx => hn x (by simp [hx])) h1
    · rw [hpr] at h1; exact h1

/-- The machine of the first with the mode of the second. -/
theorem RelMode.between {a b : Machine} (h : RelMode a b) : Alike a { a with mode := b.mode } ∧
    EqMode { a with mode := b.mode } b :=
  ⟨⟨rfl, rfl, rfl, rfl, rfl, rfl, h.mode⟩, ⟨h.axes, h.ignore, rfl⟩⟩

theorem RelMode.processAll {a b : Machine} (h : RelMode a b) (ha : Usual a) (hb : Usual b) {gs gs' : List GCode}
    (hs : List.Forall₂ SameGCode gs gs') (hg : ∀ g ∈ gs, GOK g) :
    RelMode (a.processAll gs).1 (b.processAll gs').1 ∧ (a.processAll gs).2 = (b.processAll gs').2 := by
  obtain ⟨h1, h2⟩ := h.between
  have hu : Usual { a with mode := b.mode } := ⟨⟨ha.wf.1, ha.wf.2, ha.wf.3, ha.wf.4, ha.wf.5, ha.wf.6, ha.wf.7⟩, ha.dict⟩
  have hg' : ∀ g ∈ gs', GOK g := by
    clear h1 h2
    induction hs with
    | nil => simp
    | cons h1 _ ih =>
      intro x hx
      rcases List.mem_cons.1 hx with rfl | hx
      · exact h1.gok (hg _ (by simp))
      · exact ih (fun y hy => hg y (by simp [hy])) x hx
  obtain ⟨e1, e2⟩ := processAll_alike hs hg h1
  obtain ⟨f1, f2, -, -⟩ := processAll_eqMode gs' hg' h2 hu hb
  exact ⟨⟨e1.axes.trans f1.axes, e1.ignore.trans f1.ignore, fun k => f1.mode ▸ e1.mode k⟩, e2.trans f2⟩

theorem RelMode.motion {a b : Machine} (h : RelMode a b) (bl : Block) : validWords a bl = validWords b bl := by
  unfold validWords
  have h1 : Option.Rel SameGCode a.mode.motion b.mode.motion := h.mode 1
  generalize a.mode.motion = x at h1
  generalize b.mode.motion = y at h1
  cases h1 with
  | none => rfl
  | some s => simp only [s.1]

/-- What the gcodes in effect are for both. -/
theorem RelMode.effective {a b : Machine} (h : RelMode a b) (ha : ModeOK a.mode) (hn : ModeAll Named a.mode) (bl : Block)
    (hu : ∀ w ∈ bl.modalParams, wordClass w = none) :
    (∃ e, a.blockModalGcodes bl = .error e ∧ b.blockModalGcodes bl = .error e) ∨
    ∃ gs gs', a.blockModalGcodes bl = .ok gs ∧ b.blockModalGcodes bl = .ok gs' ∧ List.Forall₂ SameGCode gs gs' := by
  obtain ⟨h1, h2⟩ := h.between
  have hm := modalGcode_alike h1 ha hn bl.modalParams hu
  rw [modalGcode_eqMode h2] at hm
  unfold blockModalGcodes
  cases hx : a.modalGcode bl.modalParams with
  | error e =>
    rw [hx] at hm
    cases hy : b.modalGcode bl.modalParams with
    | error e' => rw [hy] at hm; cases hm; exact .inl ⟨e, rfl, rfl⟩
    | ok og => rw [hy] at hm; exact hm.elim
  | ok og =>
    rw [hx] at hm
    cases hy : b.modalGcode bl.modalParams with
    | error e' => rw [hy] at hm; exact hm.elim
    | ok og' =>
      rw [hy] at hm
      refine .inr ⟨_, _, rfl, rfl, execSort_same (List.rel_append (List.forall₂_same.2 fun g _ => SameGCode.rfl' g) ?_)⟩
      change Option.Rel SameGCode og og' at hm
      cases hm with
      | none => exact .nil
      | some s => exact .cons s .nil

/-- The line, without expansions. -/
theorem line_eq (o : NormOpts) (he : o.cannedExpand = false) (fuel : ℕ) (m : Machine) (hn : ModeAll Named m.mode)
    (t : List Char) : o.line fuel m t =
      match Line.ofText t with
      | .error e => ⟨[], m, .raised e⟩
      | .ok l =>
        match blockDone o m l.block with
        | .error e => ⟨[], m, .raised e⟩
        | .ok b =>
          match m.blockModalGcodes b with
          | .error e => ⟨[], m, .raised e⟩
          | .ok gs => o.plainLine m { l with block := b } gs := by
  unfold NormOpts.line
  cases hl : Line.ofText t with
  | error e => rfl
  | ok l =>
    simp only [he, Bool.false_and, Bool.false_eq_true, if_false]
    have hc : (if o.rmInvalid = true then (m.cleanBlock l.block).map (fun b => { l with block := b }) else .ok l) =
        (blockDone o m l.block).map (fun b => { l with block := b }) := by
      by_cases hi : o.rmInvalid = true
      · rw [if_pos hi, cleanBlock_done hi hn (line_block_ok hl).unused]
      · rw [if_neg hi]; unfold blockDone; rw [if_neg hi]; rfl
    rw [hc]
    cases blockDone o m l.block <;> rfl

/-- Runs that print the same, end the same way, and leave machines with the same mode. -/
structure SameRun (x : Finset Axis × Bool) (r s : NormRes) : Prop where
  out : r.out = s.out
  status : r.status = s.status
  rel : RelMode r.m s.m
  left : Plainly x r.m
  right : Plainly x s.m

theorem SameRun.andThen {r s : NormRes} (h : SameRun x r s) {f g : Machine → NormRes}
    (hf : ∀ a b, RelMode a b → Plainly x a → Plainly x b → SameRun x (f a) (g b)) : SameRun x (r.andThen f) (s.andThen g) := by
  obtain ⟨ro, rm, rs⟩ := r
  obtain ⟨so, sm, ss⟩ := s
  obtain ⟨h1, h2, h3, h4, h5⟩ := h
  simp only at h1 h2 h3 h4 h5
  subst h1 h2
  cases rs with
  | done =>
    obtain ⟨k1, k2, k3, k4, k5⟩ := hf rm sm h3 h4 h5
    exact ⟨congrArg (ro ++ ·) k1, k2, k3, k4, k5⟩
  | _ => exact ⟨rfl, rfl, h3, h4, h5⟩

theorem RelMode.block {a b : Machine} (h : RelMode a b) (ha : Plainly x a) (hb : Plainly x b) (bl : Block)
    (hok : ∀ g ∈ bl.gcodes, GOK g) (hcls : ∀ g ∈ bl.gcodes, wordClass g.word = some g.cls)
    (hws : ∀ g ∈ bl.gcodes, g.ws = false) (hu : ∀ w ∈ bl.modalParams, wordClass w = none) :
    SameRun x (.ofM (a.processBlock bl)) (.ofM (b.processBlock bl)) := by
  rcases h.effective ha.ok ha.named bl hu with ⟨e, h1, h2⟩ | ⟨gs, gs', h1, h2, h3⟩
  · rw [processBlock_error h1, processBlock_error h2]
    exact ⟨rfl, rfl, h, ha, hb⟩
  · obtain ⟨a1, a2, -, a4, -, a6⟩ := effective_block hok hcls hws hu ha.ok ha.named h1
    obtain ⟨b1, b2, -, b4, -, b6⟩ := effective_block hok hcls hws hu hb.ok hb.named h2
    rw [a6, b6]
    obtain ⟨k1, k2⟩ := h.processAll ha.usual hb.usual h3 a2
    have k3 := Plainly.all a2 a1 ha
    have k4 := Plainly.all b2 b1 hb
    generalize a.processAll gs = r at k1 k2 k3
    generalize b.processAll gs' = s at k1 k2 k4
    obtain ⟨r, er⟩ := r
    obtain ⟨s, es⟩ := s
    simp only at k1 k2 k3 k4
    subst k2
    cases er <;> exact ⟨rfl, rfl, k1, k3, k4⟩

theorem line_same (o : NormOpts) (he : o.cannedExpand = false) (fuel : ℕ) {a b : Machine} (h : RelMode a b)
    (ha : Plainly x a) (hb : Plainly x b) (t : List Char) : SameRun x (o.line fuel a t) (o.line fuel b t) := by
  have hbd : ∀ bl, blockDone o a bl = blockDone o b bl := fun bl => by unfold blockDone; rw [h.motion]
  rw [line_eq o he fuel a ha.named, line_eq o he fuel b hb.named]
  cases hl : Line.ofText t with
  | error e => exact ⟨rfl, rfl, h, ha, hb⟩
  | ok l =>
    simp only
    rw [hbd]
    cases hd : blockDone o b l.block with
    | error e => exact ⟨rfl, rfl, h, ha, hb⟩
    | ok bl =>
      simp only
      obtain ⟨f1, f2⟩ := blockDone_facts hl hd
      have hk := line_block_ok hl
      rcases h.effective ha.ok ha.named bl f2 with ⟨e, h1, h2⟩ | ⟨gs, gs', h1, h2, h3⟩
      · rw [h1, h2]; exact ⟨rfl, rfl, h, ha, hb⟩
      · rw [h1, h2]
        simp only
        obtain ⟨a1, a2, -, a4, -, a6⟩ := effective_block (f1 ▸ hk.ok) (f1 ▸ hk.cls) (f1 ▸ hk.ws) f2 ha.ok ha.named h1
        obtain ⟨b1, b2, -, b4, -, b6⟩ := effective_block (f1 ▸ hk.ok) (f1 ▸ hk.cls) (f1 ▸ hk.ws) f2 hb.ok hb.named h2
        have hp : List.Forall₂ (fun g g' => SameGCode g g' ∧ g.str = g'.str) gs gs' := by
          rw [List.forall₂_iff_get] at h3 ⊢
          refine ⟨h3.1, fun i k1 k2 => ⟨h3.2 i k1 k2, str_same (h3.2 i k1 k2) (a2 _ (List.get_mem _ _)) ?_⟩⟩
          rw [a4 _ (List.get_mem _ _), b4 _ (List.get_mem _ _)]
        unfold NormOpts.plainLine
        rw [write_same o hp]
        refine SameRun.andThen (r := NormRes.put a _) (s := NormRes.put b _) ?_ (fun c d hcd hc hd => ?_)
        · cases (if o.full = true then o.write gs' [] l.comment l.macro?
            else o.write bl.gcodes bl.modalParams l.comment l.macro?) <;> exact ⟨rfl, rfl, h, ha, hb⟩
        · exact hcd.block hc hd bl (f1 ▸ hk.ok) (f1 ▸ hk.cls) (f1 ▸ hk.ws) f2

theorem runs_same (o : NormOpts) (he : o.cannedExpand = false) (fuel : ℕ) (ts : List (List Char)) :
    ∀ {a b : Machine}, RelMode a b → Plainly x a → Plainly x b → SameRun x (o.loop fuel a ts) (o.loop fuel b ts) := by
  induction ts with
  | nil => exact fun h ha hb => ⟨rfl, rfl, h, ha, hb⟩
  | cons t ts ih =>
    intro a b h ha hb
    exact (line_same o he fuel h ha hb t).andThen (fun c d h hc hd => ih h hc hd)

/-- **C104**: without `--canned_expand` (and `--arc_linearize`), what pygcode-norm prints for a program, and
how it ends, depends on the mode it starts in, and not on the position, the offsets, the coordinate systems and
the range of the machine. -/
theorem C104_norm (o : NormOpts) (he : o.cannedExpand = false) (fuel : ℕ) {a b : Machine} (ha : Sound a) (hb : Sound b)
    (hax : a.axes = b.axes) (hi : a.ignoreInvalid = b.ignoreInvalid) (hm : a.mode = b.mode) (ts : List (List Char)) :
    (o.loop fuel a ts).out = (o.loop fuel b ts).out ∧ (o.loop fuel a ts).status = (o.loop fuel b ts).status := by
  have h := runs_same o he fuel ts (a := a) (b := b) ⟨hax, hi, fun k => by rw [hm]; exact rel_refl _⟩
    ⟨⟨ha.wf, ha.dict⟩, rfl, ha.ok, ha.named⟩ ⟨⟨hb.wf, hb.dict⟩, by rw [hax, hi], hb.ok, hb.named⟩
  exact ⟨h.out, h.status⟩

/-! ## In pieces -/

theorem norm_assoc (r : NormRes) (f g : Machine → NormRes) :
    (r.andThen f).andThen g = r.andThen (fun m => (f m).andThen g) := by
  obtain ⟨out, m, s⟩ := r
  cases s with
  | done =>
    unfold NormRes.andThen
    simp only
    generalize f m = r
    obtain ⟨out', m', s⟩ := r
    cases s <;> simp
  | _ => rfl

/-- **C104**: the script works through a file from its first line to its last: what it prints for the first part
does not depend on the rest, and the rest is worked through from where the first part ends; if the first part
fails, what it has printed is all that is printed. -/
theorem C104_streams (o : NormOpts) (fuel : ℕ) (m : Machine) (ts us : List (List Char)) :
    o.loop fuel m (ts ++ us) = (o.loop fuel m ts).andThen (fun m => o.loop fuel m us) := by
  induction ts generalizing m with
  | nil => rfl
  | cons t ts ih =>
    rw [List.cons_append]
    show (o.line fuel m t).andThen (fun m => o.loop fuel m (ts ++ us)) =
      ((o.line fuel m t).andThen (fun m => o.loop fuel m ts)).andThen (fun m => o.loop fuel m us)
    rw [norm_assoc]
    congr 1
    funext m'
    exact ih m'

theorem finish_none (o : NormOpts) (hs : o.spindleOff = false) (hx : o.zeroXY = false) (hz : o.zeroZ = false)
    (m : Machine) : o.finish m = ⟨[], m, .done⟩ := by
  unfold NormOpts.finish NormOpts.finishComment NormOpts.finishAbsolute NormOpts.finishSpindle NormOpts.finishXY
    NormOpts.finishZ
  simp [hs, hx, hz, NormRes.andThen]

/-- **C104**: a file can be normalized in pieces. If the first piece ends in the mode `md'`, then the whole file is
printed as the first piece and the second, the latter normalized with the printed mode as `--machine_mode`. -/
theorem C104_pieces (o : NormOpts) (he : o.cannedExpand = false) (hs : o.spindleOff = false) (hx : o.zeroXY = false)
    (hz : o.zeroZ = false) (fuel : ℕ) (t : List Char) (md : Mode) (hmd : Mode.ofText t = .ok md) (ts us : List (List Char))
    (hd : (o.run fuel md ts).status = .done) (hp : PrintableMode (o.run fuel md ts).m.mode) :
    ∃ md', Mode.ofText (o.run fuel md ts).m.mode.str = .ok md' ∧
      (o.run fuel md (ts ++ us)).out = (o.run fuel md ts).out ++ (o.run fuel md' us).out ∧
      (o.run fuel md (ts ++ us)).status = (o.run fuel md' us).status := by
  have hrun : ∀ md ts, o.run fuel md ts = o.loop fuel (o.machine md) ts := by
    intro md ts
    unfold NormOpts.run
    have : o.finish = fun m => ⟨[], m, .done⟩ := funext (finish_none o hs hx hz)
    rw [this]
    generalize o.loop fuel (o.machine md) ts = r
    obtain ⟨out, m, s⟩ := r
    cases s <;> simp [NormRes.andThen]
  simp only [hrun] at hd hp ⊢
  obtain ⟨md', h1, h2⟩ := C103_printed _ hp
  have hstart : ∀ {t md}, Mode.ofText t = .ok md → Plainly (xyz, o.rmInvalid) (o.machine md) := by
    intro t md h
    obtain ⟨k1, k2, -, k3⟩ := C103_start t md h
    exact ⟨⟨(k3 o).1, ⟨_, rfl⟩⟩, rfl, k1, k2⟩
  have hself := runs_same o he fuel ts (a := o.machine md) (b := o.machine md)
    ⟨rfl, rfl, fun k => rel_refl _⟩ (hstart hmd) (hstart hmd)
  have hax : (o.loop fuel (o.machine md) ts).m.axes = xyz ∧
      (o.loop fuel (o.machine md) ts).m.ignoreInvalid = o.rmInvalid := by
    have := hself.left.fixed
    exact ⟨congrArg Prod.fst this, congrArg Prod.snd this⟩
  have hrel : RelMode (o.loop fuel (o.machine md) ts).m (o.machine md') := by
    refine ⟨hax.1, hax.2, fun k => ?_⟩
    show Option.Rel _ _ (md' k)
    obtain ⟨h3, h4⟩ := h2 k
    cases hk : (o.loop fuel (o.machine md) ts).m.mode k with
    | none => rw [h3.1 hk]; exact .none
    | some g =>
      obtain ⟨g', h5, h6⟩ := h4 g hk
      rw [h5]
      exact .some h6
  have hnext := runs_same o he fuel us hrel hself.left (hstart h1)
  refine ⟨md', h1, ?_⟩
  rw [C104_streams]
  generalize o.loop fuel (o.machine md) ts = r at hd hnext
  obtain ⟨out, m, s⟩ := r
  simp only at hd
  subst hd
  exact ⟨congrArg (out ++ ·) hnext.out, hnext.status⟩

/-! ## Cases -/

/-- A machine somewhere else. -/
def elsewhere : Machine := (newWith xyz Mode.default).goto (fun a => if a ∈ xyz then 7 else 0)

theorem elsewhere_sound : Sound elsewhere := by
  have h : Sound (newWith xyz Mode.default) := by
    obtain ⟨h1, h2, h3, h4⟩ := C103_start _ _ C103_default
    have := (h4 {}).2.2 (by
      have key : ((Mode.default 12).map (fun g => g.cls.coordSys)) = some (some 1) := by decide +kernel
      intro g hg
      rw [hg] at key
      simpa using key)
    exact this
  exact ⟨goto_wf _ h.wf _ (fun a ha => if_neg ha), h.ok, h.named, h.noWs,
    h.sync, h.dict⟩

example := C104_machine elsewhere_sound (b := newWith xyz Mode.default)
  ⟨newWith_wf _ _, elsewhere_sound.ok, elsewhere_sound.named, elsewhere_sound.noWs, elsewhere_sound.sync, ⟨_, rfl⟩⟩
  rfl rfl rfl ["G91 G1 X2".toList] "Y3 R1".toList

example := C104_norm { full := true } rfl 0 elsewhere_sound (b := newWith xyz Mode.default)
  ⟨newWith_wf _ _, elsewhere_sound.ok, elsewhere_sound.named, elsewhere_sound.noWs, elsewhere_sound.sync, ⟨_, rfl⟩⟩
  rfl rfl rfl ["G91 G1 X2".toList, "Y3".toList]

/-- With `--canned_expand` the position does matter. -/
example : let o : NormOpts := { cannedExpand := true, cannedCodes := [⟨'G', .num 81⟩] }
    (o.loop 5 elsewhere ["G81 X1 Z-2 R1".toList]).out ≠
      (o.loop 5 (newWith xyz Mode.default) ["G81 X1 Z-2 R1".toList]).out := by decide +kernel

/-- A program in two pieces, the first ending in another coordinate system and a canned cycle: the second is
completed from the mode. -/
example : let o : NormOpts := { full := true }
    (match Mode.ofText normDefaultMode with
    | .error _ => none
    | .ok md =>
      match Mode.ofText (o.run 0 md (["G55", "G81 X1 Y2 Z-3 R2"].map String.toList)).m.mode.str with
      | .error _ => none
      | .ok md' => some ((o.run 0 md' ["X4".toList]).out,
          (o.run 0 md (["G55", "G81 X1 Y2 Z-3 R2", "X4"].map String.toList)).out)) =
      some (["G81 R2 X4 Y2 Z-3".toList],
        ["G55".toList, "G81 R2 X1 Y2 Z-3".toList, "G81 R2 X4 Y2 Z-3".toList]) := by decide +kernel

theorem printable_of {m : Machine} (h : Sound m) (hp : m.mode.gcodes.all (fun g => (g.word :: g.params).all (fun w => plainB w || w == ⟨'T', .str ['0']⟩)) = true)
    (h14 : ((m.mode 14).map GCode.cls != some .spindleConstantSurfaceSpeedMode) = true) : PrintableMode m.mode where
  ok := h.ok
  named := h.named
  ws := h.noWs
  plain := by
    intro k g hk w hw
    have hgr : ∀ c : Cls, ∀ k, c.group = some k → k ∈ modalGroups.map Prod.snd := by
      have : ∀ c : Cls, (match c.group with | none => true | some k => (modalGroups.map Prod.snd).contains k) = true :=
        fun c => Cls.forall_of_all (p := fun c => (match c.group with
          | none => true | some k => (modalGroups.map Prod.snd).contains k)) (by decide +kernel) c
      intro c k hc
      have h1 := this c
      rw [hc] at h1
      exact List.contains_iff_mem.1 h1
    have hmem := (mem_gcodes m.mode g).2 ⟨k, hgr g.cls k (h.ok k g hk).1, hk⟩
    rcases (Bool.or_eq_true _ _).mp (List.all_eq_true.1 (List.all_eq_true.1 hp g hmem) w hw) with h1 | h1
    · exact plainB_sound h1
    · rw [beq_iff_eq.1 h1]
      refine ⟨?_, by decide, fun _ => by decide⟩
      show ValueText .tool ['0']
      exact ⟨[], ['0'], rfl, by simp [Blank], by simp, by simp [Digits]⟩
  noG96S := fun g s h1 _ hc => by rw [h1] at h14; simp [hc] at h14

def firstPiece : List (List Char) := ["G55", "G81 X1 Y2 Z-3 R2"].map String.toList

example := C104_pieces { full := true } rfl rfl rfl rfl 0 _ _ C103_default firstPiece ["X4".toList]
  (by decide +kernel)
  (printable_of (by
    have hs : Sound (({ full := true } : NormOpts).machine Mode.default) := by
      have := elsewhere_sound
      exact ⟨newWith_wf _ _, this.ok, this.named, this.noWs, this.sync, this.dict⟩
    rw [(C88_run { full := true } 0 Mode.default hs firstPiece).2, (C88_plain { full := true } rfl 0 _ (fun _ => hs) firstPiece).1]
    exact (sound_lines { full := true } firstPiece hs).1) (by decide +kernel) (by decide +kernel))

end Pygcode
