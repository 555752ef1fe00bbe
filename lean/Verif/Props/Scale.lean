import Verif.Lemmas.Deal
import Verif.Props.Published
import Verif.Props.Shift

/-!
# Scaled and mirrored programs (C94)

If every word of a program is replaced so that axis words are scaled, axis by axis, and every other code is
replaced by one that the machine treats alike, then every position of the machine is scaled the same way.
-/

namespace Pygcode
open Props Machine Spec

/-! ## Specification -/

/-- The words of a line (line.py:20-26, block.py:38-45). -/
def lineWords (t : List Char) : Except Err (List Word) :=
  match Line.parts t with
  | .error e => .error e
  | .ok (bs, _, _) => text2words (cleanText bs)

/-- Codes may be exchanged: every word keeps its letter, and the class of its code is replaced by one with
the same parameters, modal group, place in the execution order and kind of motion. -/
structure Exchange (κ : Cls → Cls) (f : Word → Word) : Prop where
  letter : ∀ w, (f w).letter = w.letter
  cls : ∀ w, wordClass (f w) = (wordClass w).map κ
  inj : ∀ w w', wordClass w ≠ none → wordClass w' ≠ none → f w = f w' → w = w'
  params : ∀ c, (κ c).params = c.params
  modalParams : ∀ c, (κ c).modalParams = c.modalParams
  group : ∀ c, (κ c).group = c.group
  order : ∀ c, (κ c).order = c.order
  proc : ∀ c, (κ c).proc = c.proc
  system : ∀ c, (κ c).coordSys = c.coordSys
  normal : ∀ c, (κ c).normalAxis = c.normalAxis
  incr : ∀ c, (κ c).isSub .incrementalDistanceMode = c.isSub .incrementalDistanceMode
  toR : ∀ c, (κ c).isSub .cannedCycleReturnToR = c.isSub .cannedCycleReturnToR

/-- Axis words are scaled by the factor of the axis, R words by `r`; the counts of L words stay. -/
structure Scales (k : Axis → ℚ) (r : ℚ) (f : Word → Word) : Prop where
  axis : ∀ w a, Axis.ofLetter w.letter = some a → (f w).num = k a * w.num
  level : ∀ w, w.letter = 'R' → (f w).num = r * w.num
  count : ∀ w, w.letter = 'L' → (f w).num = w.num

/-- The gcode with its words replaced. -/
def GCode.exchange (κ : Cls → Cls) (f : Word → Word) (g : GCode) : GCode :=
  ⟨κ g.cls, f g.word, g.params.map f, g.ws⟩

/-- `b` is `a`, scaled. -/
structure Scaled (κ : Cls → Cls) (f : Word → Word) (k : Axis → ℚ) (a b : Machine) : Prop where
  axes : b.axes = a.axes
  ignore : b.ignoreInvalid = a.ignoreInvalid
  mode : ∀ i, b.mode i = (a.mode i).map (GCode.exchange κ f)
  cur : b.state.cur = a.state.cur
  offset : b.state.offset.axes = a.state.offset.axes ∧ ∀ x, b.state.offset.val x = k x * a.state.offset.val x
  systems : ∃ f g, a.state.systems = .dict f ∧ b.state.systems = .dict g ∧
    ∀ i, (g i).axes = (f i).axes ∧ ∀ x, (g i).val x = k x * (f i).val x
  abs : b.absPos.axes = a.absPos.axes ∧ b.absPos.unit = a.absPos.unit ∧ ∀ x, b.absPos.val x = k x * a.absPos.val x
  loAxes : a.axes ⊆ b.rangeMin.axes
  hiAxes : a.axes ⊆ b.rangeMax.axes
  range : ∀ x ∈ a.axes, 0 ≤ k x → b.rangeMin.val x = k x * a.rangeMin.val x ∧ b.rangeMax.val x = k x * a.rangeMax.val x
  mirrored : ∀ x ∈ a.axes, k x ≤ 0 → b.rangeMin.val x = k x * a.rangeMax.val x ∧ b.rangeMax.val x = k x * a.rangeMin.val x

/-- The normal axis of the plane selected by a gcode, if any, is scaled like R. -/
def Leveled (k : Axis → ℚ) (r : ℚ) (c : Cls) : Prop := ∀ n, c.normalAxis.bind Axis.ofLetter = some n → k n = r

/-! ## Words and gcodes -/

variable {κ : Cls → Cls} {f : Word → Word} {k : Axis → ℚ} {r : ℚ}

/-- What is dealt to a gcode, replaced. -/
def Desc.exchange (κ : Cls → Cls) (f : Word → Word) (d : Desc) : Desc := (κ d.1, f d.2.1, d.2.2.map f)

theorem Exchange.give (hf : Exchange κ f) (w : Word) (ds : List Desc) :
    Pygcode.give (f w) (ds.map (Desc.exchange κ f)) = (Pygcode.give w ds).map (List.map (Desc.exchange κ f)) := by
  induction ds with
  | nil => rfl
  | cons d ds ih =>
    obtain ⟨c, x, ps⟩ := d
    simp only [List.map_cons, Desc.exchange, Pygcode.give, hf.letter, hf.params]
    by_cases hc : w.letter ∈ c.params
    · rw [if_pos hc, if_pos hc]
      simp [Desc.exchange]
    · rw [if_neg hc, if_neg hc, ih]
      cases Pygcode.give w ds <;> simp [Desc.exchange]

theorem Exchange.dealt (hf : Exchange κ f) (ws : List Word) :
    Pygcode.dealt (ws.map f) = ((Pygcode.dealt ws).1.map (Desc.exchange κ f), (Pygcode.dealt ws).2.map f) := by
  have : ∀ (ws : List Word) (st : List Desc × List Word), (ws.map f).foldl deal (st.1.map (Desc.exchange κ f), st.2.map f) =
      ((ws.foldl deal st).1.map (Desc.exchange κ f), (ws.foldl deal st).2.map f) := by
    intro ws
    induction ws with
    | nil => intro st; rfl
    | cons w ws ih =>
      intro st
      rw [List.map_cons, List.foldl_cons, List.foldl_cons, ← ih]
      congr 1
      unfold deal
      rw [hf.give, hf.cls]
      cases Pygcode.give w st.1 with
      | some ds => rfl
      | none =>
        cases wordClass w with
        | none => simp
        | some c => simp [Desc.exchange]
  exact this ws ([], [])

theorem Exchange.makeAll (hf : Exchange κ f) (ds : List Desc) :
    Pygcode.makeAll (ds.map (Desc.exchange κ f)) = (Pygcode.makeAll ds).map (List.map (GCode.exchange κ f)) := by
  have hle : ∀ ps : List Word, (ps.map f).map Word.letter = ps.map Word.letter := by
    intro ps
    rw [List.map_map]
    exact List.map_congr_left (fun w _ => hf.letter w)
  have hiff : ∀ d : Desc, ((∀ p ∈ (Desc.exchange κ f d).2.2, p.letter ∈ (Desc.exchange κ f d).1.params) ∧
      ((Desc.exchange κ f d).2.2.map Word.letter).Nodup) ↔
      ((∀ p ∈ d.2.2, p.letter ∈ d.1.params) ∧ (d.2.2.map Word.letter).Nodup) := by
    intro d
    simp only [Desc.exchange, hle, hf.params, List.forall_mem_map, hf.letter]
  cases h : Pygcode.makeAll ds with
  | ok gs =>
    obtain ⟨h1, h2⟩ := makeAll_ok h
    rw [makeAll_of_ok _ (by
      intro d hd
      obtain ⟨d', hd', rfl⟩ := List.mem_map.1 hd
      exact (hiff d').2 (h2 d' hd'))]
    subst h1
    simp only [Except.map, List.map_map]
    rfl
  | error e =>
    obtain ⟨rfl, d, hd, hn⟩ := makeAll_err h
    cases h' : Pygcode.makeAll (ds.map (Desc.exchange κ f)) with
    | ok gs => exact absurd ((hiff d).1 ((makeAll_ok h').2 _ (List.mem_map_of_mem hd))) hn
    | error e => rw [(makeAll_err h').1]; rfl

theorem Exchange.words2gcodes (hf : Exchange κ f) (ws : List Word) : Pygcode.words2gcodes (ws.map f) =
    (Pygcode.words2gcodes ws).map (fun p => (p.1.map (GCode.exchange κ f), p.2.map f)) := by
  rw [words2gcodes_dealt, words2gcodes_dealt, hf.dealt]
  simp only
  rw [← List.map_reverse, hf.makeAll]
  cases Pygcode.makeAll (Pygcode.dealt ws).1.reverse <;> rfl

theorem Exchange.assertLoop (hf : Exchange κ f) (gs : List GCode) (hn : ∀ g ∈ gs, Named g) :
    Block.assertLoop [] [] (gs.map (GCode.exchange κ f)) = Block.assertLoop [] [] gs := by
  have hiff : Block.assertLoop [] [] (gs.map (GCode.exchange κ f)) = .ok () ↔ Block.assertLoop [] [] gs = .ok () := by
    rw [(assertLoop_spec _ _ _).2, (assertLoop_spec _ _ _).2, List.pairwise_map]
    simp only [List.not_mem_nil, not_false_eq_true, implies_true, and_true, true_and]
    have : ∀ a ∈ gs, ∀ b ∈ gs, (((GCode.exchange κ f a).word ≠ (GCode.exchange κ f b).word ∧
        ∀ k, (GCode.exchange κ f a).cls.group = some k → (GCode.exchange κ f b).cls.group ≠ some k) ↔
        (a.word ≠ b.word ∧ ∀ k, a.cls.group = some k → b.cls.group ≠ some k)) := by
      intro a ha b hb
      simp only [GCode.exchange, hf.group]
      have hne : f a.word ≠ f b.word ↔ a.word ≠ b.word := by
        rw [not_iff_not]
        refine ⟨hf.inj _ _ ?_ ?_, congrArg f⟩
        · rw [hn a ha]; simp
        · rw [hn b hb]; simp
      rw [hne]
    constructor
    · exact List.Pairwise.imp_of_mem (fun ha hb h => (this _ ha _ hb).1 h)
    · exact List.Pairwise.imp_of_mem (fun ha hb h => (this _ ha _ hb).2 h)
  rcases (assertLoop_spec (gs.map (GCode.exchange κ f)) [] []).1 with h | h
  · rw [h, hiff.1 h]
  · rcases (assertLoop_spec gs [] []).1 with h' | h'
    · rw [hiff.2 h'] at h; cases h
    · rw [h, h']

/-- The block of a line, by its words. -/
theorem ofText_words (t : List Char) : (Line.ofText t).map Line.block =
    match lineWords t with
    | .error e => .error e
    | .ok ws =>
      match words2gcodes ws with
      | .error e => .error e
      | .ok (gs, mp) => (Block.assertLoop [] [] gs).map (fun _ => (⟨ws, gs, mp⟩ : Block)) := by
  unfold Line.ofText lineWords
  cases Line.parts t with
  | error e => rfl
  | ok q =>
    obtain ⟨bs, c, m⟩ := q
    simp only [Block.ofText]
    cases text2words (cleanText bs) with
    | error e => rfl
    | ok ws =>
      simp only
      cases words2gcodes ws with
      | error e => rfl
      | ok q =>
        obtain ⟨gs, mp⟩ := q
        simp only [if_true]
        cases Block.assertLoop [] [] gs <;> rfl

/-- The block with its words replaced. -/
def Block.exchange (κ : Cls → Cls) (f : Word → Word) (b : Block) : Block :=
  ⟨b.words.map f, b.gcodes.map (GCode.exchange κ f), b.modalParams.map f⟩

theorem Exchange.ofText (hf : Exchange κ f) {t t' : List Char} (h : lineWords t' = (lineWords t).map (List.map f)) :
    (Line.ofText t').map Line.block = ((Line.ofText t).map Line.block).map (Block.exchange κ f) := by
  rw [ofText_words, ofText_words, h]
  cases lineWords t with
  | error e => rfl
  | ok ws =>
    simp only [Except.map]
    rw [hf.words2gcodes]
    cases hw : Pygcode.words2gcodes ws with
    | error e => rfl
    | ok q =>
      obtain ⟨gs, mp⟩ := q
      simp only [Except.map]
      rw [hf.assertLoop gs (fun g hg => kept_named.parsed ws gs mp hw g hg)]
      cases Block.assertLoop [] [] gs <;> rfl

/-! ## The machine -/

theorem Scaled.wf {a b : Machine} (h : Scaled κ f k a b) (ha : a.WF) : b.WF where
  abs := by rw [h.abs.1, h.axes, ha.abs]
  absWF := fun x hxa => by
    rw [h.abs.1] at hxa
    rw [h.abs.2.2, ha.absWF x hxa, mul_zero]
  sys := fun g hg i => by
    obtain ⟨f, g', hf, hg', hk⟩ := h.systems
    rw [hg] at hg'
    cases hg'
    refine ⟨by rw [(hk i).1, h.axes, (ha.sys f hf i).1], fun x hxa => ?_⟩
    rw [(hk i).1] at hxa
    rw [(hk i).2, (ha.sys f hf i).2 x hxa, mul_zero]
  off := by rw [h.offset.1, h.axes, ha.off]
  offWF := fun x hx => by
    rw [h.offset.1] at hx
    rw [h.offset.2, ha.offWF x hx, mul_zero]
  lo := by rw [h.axes]; exact h.loAxes
  hi := by rw [h.axes]; exact h.hiAxes

theorem Scaled.sysOff {a b : Machine} (h : Scaled κ f k a b) (x : Axis) : b.sysOff x = k x * a.sysOff x := by
  obtain ⟨f, g, hf, hg, hk⟩ := h.systems
  unfold Machine.sysOff
  rw [hf, hg, h.cur]
  simp only
  split_ifs
  · rw [(hk _).2]
  · rw [mul_zero]

theorem Scaled.good {a b : Machine} (h : Scaled κ f k a b) : ¬ a.BadSys ∧ ¬ b.BadSys := by
  obtain ⟨f, g, hf, hg, -⟩ := h.systems
  exact ⟨not_bad_of_dict hf, not_bad_of_dict hg⟩

theorem Scaled.goto {a b : Machine} (h : Scaled κ f k a b) {v w : Axis → ℚ} (hv : ∀ x, w x = k x * v x) :
    Scaled κ f k (a.goto v) (b.goto w) where
  axes := h.axes
  ignore := h.ignore
  mode := h.mode
  cur := h.cur
  offset := h.offset
  systems := h.systems
  abs := ⟨h.axes, h.abs.2.1, hv⟩
  loAxes := Finset.subset_univ _
  hiAxes := Finset.subset_univ _
  range := fun x hx hk => by
    have hx' : x ∈ a.axes := hx
    simp only [Machine.goto, h.axes, hx', if_true, hv, (h.range x hx' hk).1, (h.range x hx' hk).2]
    exact ⟨(mul_min_of_nonneg _ _ hk).symm, (mul_max_of_nonneg _ _ hk).symm⟩
  mirrored := fun x hx hk => by
    have hx' : x ∈ a.axes := hx
    simp only [Machine.goto, h.axes, hx', if_true, hv, (h.mirrored x hx' hk).1, (h.mirrored x hx' hk).2]
    exact ⟨((antitone_mul_left hk).map_max).symm, ((antitone_mul_left hk).map_min).symm⟩

/-- Coordinates, scaled. -/
def scaleCoords (k : Axis → ℚ) (cs : Coords) : Coords := cs.map (fun c => (c.1, c.2.map (k c.1 * ·)))

theorem scale_values (k : Axis → ℚ) (cs : Coords) : (scaleCoords k cs).filterMap (fun c => c.2.map (fun v => (c.1, v))) =
    (cs.filterMap (fun c => c.2.map (fun v => (c.1, v)))).map (fun c => (c.1, k c.1 * c.2)) := by
  induction cs with
  | nil => rfl
  | cons c cs ih =>
    obtain ⟨x, _ | v⟩ := c
    · simpa [scaleCoords] using ih
    · simp only [scaleCoords, List.map_cons, Option.map_some, List.filterMap_cons] at ih ⊢
      rw [ih]

theorem scale_none (k : Axis → ℚ) (cs : Coords) :
    (scaleCoords k cs).any (fun c => c.2.isNone) = cs.any (fun c => c.2.isNone) := by
  simp only [scaleCoords, List.any_map, Function.comp_def, Option.isNone_map]

theorem scale_lookup (k : Axis → ℚ) (cs : List (Axis × ℚ)) (x : Axis) :
    Position.lookup (cs.map (fun c => (c.1, k c.1 * c.2))) x = (Position.lookup cs x).map (k x * ·) := by
  induction cs with
  | nil => rfl
  | cons c cs ih =>
    unfold Position.lookup at ih ⊢
    by_cases hc : c.1 = x
    · subst hc; simp
    · simp only [List.map_cons, List.find?_cons, beq_eq_false_iff_ne.2 hc, ih]

theorem scale_update (k : Axis → ℚ) (cs : List (Axis × ℚ)) : ∀ (p q : Position), q.axes = p.axes →
    (∀ x, q.val x = k x * p.val x) →
    (q.update (cs.map (fun c => (c.1, k c.1 * c.2)))).2 = (p.update cs).2 ∧
      ∀ x, (q.update (cs.map (fun c => (c.1, k c.1 * c.2)))).1.val x = k x * (p.update cs).1.val x := by
  induction cs with
  | nil => exact fun p q _ h => ⟨rfl, h⟩
  | cons c cs ih =>
    intro p q hax h
    rw [List.map_cons]
    unfold Position.update Position.set
    rw [hax]
    by_cases hc : c.1 ∈ p.axes
    · simp only [hc, if_true]
      refine ih _ _ rfl (fun x => ?_)
      by_cases hx : x = c.1
      · subst hx; simp
      · simp only [Function.update_of_ne hx, h]
    · simp only [hc, if_false]
      exact ⟨trivial, h⟩

theorem Scaled.incremental {a b : Machine} (hf : Exchange κ f) (h : Scaled κ f k a b) : b.incremental = a.incremental := by
  unfold Machine.incremental Mode.distance
  rw [h.mode]
  cases a.mode 3 with
  | none => rfl
  | some g => exact hf.incr g.cls

theorem Scaled.move {a b : Machine} (hf : Exchange κ f) (h : Scaled κ f k a b) (ha : a.WF) (cs : Coords) :
    Scaled κ f k (a.move cs).1 (b.move (scaleCoords k cs)).1 ∧ (b.move (scaleCoords k cs)).2 = (a.move cs).2 := by
  have hb := h.wf ha
  obtain ⟨g1, g2⟩ := h.good
  have hp : ∀ x, b.absPos.val x - b.sysOff x - b.state.offset.val x =
      k x * (a.absPos.val x - a.sysOff x - a.state.offset.val x) := by
    intro x
    rw [h.abs.2.2, h.sysOff, h.offset.2]
    ring
  unfold Machine.move
  rw [pos_ok a ha g1, pos_ok b hb g2, h.incremental hf, h.axes]
  by_cases hi : a.incremental = true
  · simp only [hi, if_true]
    have hown : (scaleCoords k cs).filter (fun c => decide (c.1 ∈ a.axes)) =
        scaleCoords k (cs.filter (fun c => decide (c.1 ∈ a.axes))) := by
      unfold scaleCoords
      rw [List.filter_map]
      rfl
    rw [hown, scale_none, scale_values]
    split_ifs with h1
    · exact ⟨h, rfl⟩
    · simp only [Position.add, Position.make, if_true]
      rw [setPos_mk a ha g1]
      have := setPos_mk b hb g2
      rw [h.axes] at this
      rw [this]
      refine ⟨h.goto (fun x => ?_), rfl⟩
      rw [hp, h.sysOff, h.offset.2, scale_lookup]
      split_ifs
      · cases Position.lookup _ x <;> simp only [Option.map_none, Option.map_some, Option.getD_none, Option.getD_some] <;> ring
      · ring
  · simp only [hi, Bool.false_eq_true, if_false]
    have hany : (scaleCoords k cs).any (fun c => decide (c.1 ∉ a.axes)) = cs.any (fun c => decide (c.1 ∉ a.axes)) := by
      simp only [scaleCoords, List.any_map, Function.comp_def]
    rw [hany, scale_none, scale_values]
    split_ifs with h1 h2
    · exact ⟨h, rfl⟩
    · exact ⟨h, rfl⟩
    · obtain ⟨u1, u2⟩ := scale_update k (cs.filterMap (fun c => c.2.map (fun v => (c.1, v))))
        ⟨a.axes, a.absPos.unit, fun x => a.absPos.val x - a.sysOff x - a.state.offset.val x⟩
        ⟨a.axes, b.absPos.unit, fun x => b.absPos.val x - b.sysOff x - b.state.offset.val x⟩ rfl hp
      set p : Position := ⟨a.axes, a.absPos.unit, fun x => a.absPos.val x - a.sysOff x - a.state.offset.val x⟩
      set p' : Position := ⟨a.axes, b.absPos.unit, fun x => b.absPos.val x - b.sysOff x - b.state.offset.val x⟩
      obtain ⟨k1, k2, k3⟩ := update_keeps p (cs.filterMap (fun c => c.2.map (fun v => (c.1, v))))
      obtain ⟨l1, l2, l3⟩ := update_keeps p' ((cs.filterMap (fun c => c.2.map (fun v => (c.1, v)))).map
        (fun c => (c.1, k c.1 * c.2)))
      generalize p.update (cs.filterMap (fun c => c.2.map (fun v => (c.1, v)))) = r at *
      generalize p'.update ((cs.filterMap (fun c => c.2.map (fun v => (c.1, v)))).map
        (fun c => (c.1, k c.1 * c.2))) = s at *
      obtain ⟨q, e⟩ := r
      obtain ⟨q', e'⟩ := s
      simp only at u1
      subst u1
      cases e' with
      | some e => exact ⟨h, rfl⟩
      | none =>
        simp only at k1 k2 l1 l2 u2 ⊢
        rw [setPos_ok a ha g1 q k1 k2, setPos_ok b hb g2 q' (by rw [h.axes, l1]) l2]
        refine ⟨h.goto (fun x => ?_), rfl⟩
        rw [h.sysOff, h.offset.2, u2]
        ring

theorem Scaled.moves (hf : Exchange κ f) (cs : Coords) (n : ℕ) : ∀ {a b : Machine}, Scaled κ f k a b → a.WF →
    Scaled κ f k (a.moves cs n).1 (b.moves (scaleCoords k cs) n).1 ∧
      (b.moves (scaleCoords k cs) n).2 = (a.moves cs n).2 := by
  induction n with
  | zero => exact fun h _ => ⟨h, rfl⟩
  | succ n ih =>
    intro a b h ha
    obtain ⟨h1, h2⟩ := h.move hf ha cs
    have w1 := (move_same a ha cs).1
    unfold Machine.moves andThen
    generalize a.move cs = r at *
    generalize b.move (scaleCoords k cs) = s at *
    obtain ⟨a', ea⟩ := r
    obtain ⟨b', eb⟩ := s
    simp only at h1 h2 w1
    subst h2
    cases eb with
    | some e => exact ⟨h1, rfl⟩
    | none => exact ih h1 w1

theorem scale_coords (hf : Exchange κ f) (hk : Scales k r f) (ax : Finset Axis) (g : GCode) :
    coords ax (g.exchange κ f) = (coords ax g).map (fun c => (c.1, k c.1 * c.2)) := by
  unfold coords GCode.exchange
  simp only
  induction g.params with
  | nil => rfl
  | cons w ws ih =>
    rw [List.map_cons, List.filterMap_cons, List.filterMap_cons, hf.letter]
    cases hx : Axis.ofLetter w.letter with
    | none => simpa using ih
    | some x =>
      simp only
      by_cases hm : x ∈ ax
      · simp only [hm, if_true, List.map_cons, hk.axis w x hx, ih]
      · simp only [hm, if_false, ih]

theorem scale_base (hf : Exchange κ f) (hk : Scales k r f) (ax : Finset Axis) (g : GCode) :
    (coords ax (g.exchange κ f)).map (fun c => (c.1, some c.2)) =
      scaleCoords k ((coords ax g).map (fun c => (c.1, some c.2))) := by
  rw [scale_coords hf hk]
  unfold scaleCoords
  rw [List.map_map, List.map_map]
  rfl

theorem exchange_param (hf : Exchange κ f) (g : GCode) (l : Char) : (g.exchange κ f).param l = (g.param l).map f := by
  unfold GCode.param GCode.exchange
  simp only
  rw [List.find?_map]
  simp only [Function.comp_def, hf.letter]

theorem exchange_get (hf : Exchange κ f) (g : GCode) (l : Char) :
    (∀ e, g.get l = .error e → (g.exchange κ f).get l = .error e) ∧
      ∀ v, g.get l = .ok v → ∃ v', (g.exchange κ f).get l = .ok v' := by
  unfold GCode.get
  rw [show (g.exchange κ f).cls.params = g.cls.params from hf.params _]
  split_ifs
  · exact ⟨(fun _ h => nomatch h), fun _ _ => ⟨_, rfl⟩⟩
  · exact ⟨fun _ h => h, (fun _ h => nomatch h)⟩

theorem param_letter {g : GCode} {l : Char} {w : Word} (h : g.param l = some w) : w.letter = l := by
  simpa using List.find?_some h

theorem exchange_level (hf : Exchange κ f) (hk : Scales k r f) (g : GCode) :
    (g.exchange κ f).num? 'R' = (g.num? 'R').map (r * ·) := by
  unfold GCode.num?
  rw [exchange_param hf]
  cases h : g.param 'R' with
  | none => rfl
  | some w => simp [hk.level w (param_letter h)]

theorem exchange_count (hf : Exchange κ f) (hk : Scales k r f) (g : GCode) : loopCount (g.exchange κ f) = loopCount g := by
  have hn : (g.exchange κ f).num? 'L' = g.num? 'L' := by
    unfold GCode.num?
    rw [exchange_param hf]
    cases h : g.param 'L' with
    | none => rfl
    | some w => simp [hk.count w (param_letter h)]
  unfold loopCount
  rw [hn]
  obtain ⟨h1, h2⟩ := exchange_get hf g 'L'
  cases h : g.get 'L' with
  | error e => rw [h1 e h]
  | ok v =>
    obtain ⟨v', hv⟩ := h2 v h
    rw [hv]

theorem Scaled.canned {a b : Machine} (hf : Exchange κ f) (hk : Scales k r f) (h : Scaled κ f k a b)
    (hl : ∀ pl, a.mode.plane = some pl → Leveled k r pl.cls) (g : GCode) :
    b.cannedCoords (g.exchange κ f) = (a.cannedCoords g).map (scaleCoords k) := by
  have hany : ∀ (cs : Coords) (n : Axis), (scaleCoords k cs).any (fun c => c.1 == n) = cs.any (fun c => c.1 == n) := by
    intro cs n
    simp only [scaleCoords, List.any_map, Function.comp_def]
  obtain ⟨g1, g2⟩ := exchange_get hf g 'R'
  unfold cannedCoords Mode.cannedReturn Mode.plane at *
  simp only
  rw [h.axes, scale_base hf hk, exchange_level hf hk, h.mode 2, h.mode 10]
  cases hp : a.mode 2 with
  | none => rfl
  | some pl =>
    have hpl := hl pl hp
    unfold Leveled at hpl
    simp only [Option.map_some]
    rw [show (GCode.exchange κ f pl).cls.normalAxis = pl.cls.normalAxis from hf.normal _]
    have hno : (match pl.cls.normalAxis.bind Axis.ofLetter with
        | none => Except.ok (scaleCoords k ((Machine.coords a.axes g).map (fun c : Axis × ℚ => (c.1, some c.2))))
        | some n => .ok ((scaleCoords k ((Machine.coords a.axes g).map (fun c : Axis × ℚ => (c.1, some c.2)))).filter (fun c => c.1 != n))) =
        (match pl.cls.normalAxis.bind Axis.ofLetter with
        | none => Except.ok (ε := Err) ((Machine.coords a.axes g).map (fun c : Axis × ℚ => (c.1, some c.2)))
        | some n => .ok (((Machine.coords a.axes g).map (fun c : Axis × ℚ => (c.1, some c.2))).filter (fun c => c.1 != n))).map (scaleCoords k) := by
      cases pl.cls.normalAxis.bind Axis.ofLetter with
      | none => rfl
      | some n =>
        simp only [Except.map, scaleCoords, List.filter_map]
        rfl
    cases a.mode 10 with
    | none => exact hno
    | some rt =>
      simp only [Option.map_some]
      simp only [show (GCode.exchange κ f rt).cls.isSub .cannedCycleReturnToR = rt.cls.isSub .cannedCycleReturnToR from hf.toR _]
      split_ifs with ht
      · cases hg : g.get 'R' with
        | error e => rw [g1 e hg]; rfl
        | ok v =>
          obtain ⟨v', hv⟩ := g2 v hg
          rw [hv]
          simp only
          cases hn : pl.cls.normalAxis.bind Axis.ofLetter with
          | none => rfl
          | some n =>
            have hkn := hpl n hn
            simp only
            rw [hany]
            split_ifs
            · simp only [Except.map, scaleCoords, List.map_map]
              congr 1
              apply List.map_congr_left
              intro c _
              simp only [Function.comp_apply]
              split_ifs
              · rw [hkn]
              · rfl
            · simp only [Except.map, scaleCoords, List.map_append, List.map_cons, List.map_nil, hkn]
      · exact hno

theorem Scaled.effect {a b : Machine} (hf : Exchange κ f) (hk : Scales k r f) (h : Scaled κ f k a b) (ha : a.WF)
    (hl : ∀ pl, a.mode.plane = some pl → Leveled k r pl.cls) (g : GCode) :
    Scaled κ f k (a.effect g).1 (b.effect (g.exchange κ f)).1 ∧ (b.effect (g.exchange κ f)).2 = (a.effect g).2 := by
  unfold Machine.effect
  rw [h.canned hf hk hl, h.axes, scale_base hf hk, exchange_count hf hk, show (g.exchange κ f).cls.proc = g.cls.proc from hf.proc _]
  cases g.cls.proc with
  | nothing => exact ⟨h, rfl⟩
  | motion => exact h.move hf ha _
  | rapid => exact h.move hf ha _
  | cancel =>
    refine ⟨⟨rfl, h.ignore, fun i => ?_, h.cur, h.offset, h.systems, h.abs, h.loAxes, h.hiAxes, h.range, h.mirrored⟩, rfl⟩
    simp only
    by_cases hi : i = 1
    · subst hi; simp
    · simp only [Function.update_of_ne hi, h.mode]
  | canned =>
    simp only
    cases a.cannedCoords g with
    | error e => exact ⟨h, rfl⟩
    | ok cs =>
      simp only [Except.map]
      cases loopCount g with
      | error e => exact ⟨h, rfl⟩
      | ok n => exact Scaled.moves hf cs n h ha

theorem exchange_copyOf (hf : Exchange κ f) (g : GCode) : copyOf (g.exchange κ f) = (copyOf g).exchange κ f := by
  unfold copyOf GCode.exchange
  simp only [hf.modalParams, List.filter_map, Function.comp_def, hf.letter]

theorem exchange_setIn (hf : Exchange κ f) {a b : Mode} (h : ∀ i, b i = (a i).map (GCode.exchange κ f)) (g : GCode) (i : ℕ) :
    setIn b (g.exchange κ f) i = (setIn a g i).map (GCode.exchange κ f) := by
  unfold setIn
  rw [show (g.exchange κ f).cls.group = g.cls.group from hf.group _]
  cases g.cls.group with
  | none => exact h i
  | some j =>
    simp only
    by_cases hi : i = j
    · subst hi
      simp [exchange_copyOf hf]
    · simp only [Function.update_of_ne hi, h]

theorem Scaled.withMode {a b : Machine} (hf : Exchange κ f) (h : Scaled κ f k a b) {md md' : Mode}
    (hm : ∀ i, md' i = (md i).map (GCode.exchange κ f)) : Scaled κ f k (a.withMode md) (b.withMode md') where
  axes := h.axes
  ignore := h.ignore
  mode := hm
  cur := by
    unfold Machine.withMode Mode.coordSystem
    simp only
    rw [hm]
    cases md 12 with
    | none => exact h.cur
    | some g => exact congrArg (·.getD 0) (hf.system g.cls)
  offset := h.offset
  systems := h.systems
  abs := h.abs
  loAxes := h.loAxes
  hiAxes := h.hiAxes
  range := h.range
  mirrored := h.mirrored

/-- The plane of a machine is scaled like R. -/
def PlaneLeveled (k : Axis → ℚ) (r : ℚ) (m : Machine) : Prop := ∀ pl, m.mode.plane = some pl → Leveled k r pl.cls

theorem Scaled.process {a b : Machine} (hf : Exchange κ f) (hk : Scales k r f) (h : Scaled κ f k a b) (ha : a.WF)
    (hl : PlaneLeveled k r a) (g : GCode) (hg : GOK g) (hp : Leveled k r g.cls) :
    Scaled κ f k (a.process g).1 (b.process (g.exchange κ f)).1 ∧ (b.process (g.exchange κ f)).2 = (a.process g).2 ∧
      (a.process g).1.WF ∧ PlaneLeveled k r (a.process g).1 := by
  have hg' : GOK (g.exchange κ f) := by
    refine ⟨?_, ?_⟩
    · have : (g.exchange κ f).params.map Word.letter = g.params.map Word.letter := by
        simp only [GCode.exchange, List.map_map]
        exact List.map_congr_left (fun w _ => hf.letter w)
      rw [this]
      exact hg.1
    · intro p hp
      obtain ⟨q, hq, rfl⟩ := List.mem_map.1 hp
      rw [hf.letter]
      have := hg.2 q hq
      rwa [← hf.params] at this
  have hwf := (path_process a ha g hg).wf ha
  rw [process_eq a g hg] at hwf ⊢
  rw [process_eq b _ hg']
  have hw := withMode_wf a ha (setIn a.mode g)
  have hpl : PlaneLeveled k r (a.withMode (setIn a.mode g)) := by
    intro pl hpl
    have hpl' : setIn a.mode g 2 = some pl := hpl
    unfold setIn at hpl'
    cases hgr : g.cls.group with
    | none => rw [hgr] at hpl'; exact hl pl hpl'
    | some j =>
      rw [hgr] at hpl'
      simp only at hpl'
      by_cases hj : 2 = j
      · subst hj
        rw [Function.update_self] at hpl'
        cases hpl'
        exact hp
      · rw [Function.update_of_ne hj] at hpl'
        exact hl pl hpl'
  obtain ⟨h1, h2⟩ := (h.withMode hf (exchange_setIn hf h.mode g)).effect hf hk hw hpl g
  refine ⟨h1, h2, hwf, ?_⟩
  intro pl hx
  unfold Mode.plane at hx
  rcases (effect_mode _ hw g).1 with he | he <;> rw [he] at hx
  · exact hpl pl hx
  · rw [Function.update_of_ne (by decide)] at hx
    exact hpl pl hx

theorem Scaled.all (hf : Exchange κ f) (hk : Scales k r f) {gs : List GCode} : ∀ {a b : Machine}, Scaled κ f k a b → a.WF →
    PlaneLeveled k r a → (∀ g ∈ gs, GOK g ∧ Leveled k r g.cls) →
    Scaled κ f k (a.processAll gs).1 (b.processAll (gs.map (GCode.exchange κ f))).1 ∧
      (b.processAll (gs.map (GCode.exchange κ f))).2 = (a.processAll gs).2 ∧
      (a.processAll gs).1.WF ∧ PlaneLeveled k r (a.processAll gs).1 := by
  induction gs with
  | nil => exact fun h ha hl _ => ⟨h, rfl, ha, hl⟩
  | cons g gs ih =>
    intro a b h ha hl hg
    obtain ⟨g1, g2⟩ := hg g List.mem_cons_self
    obtain ⟨h1, h2, h3, h4⟩ := h.process hf hk ha hl g g1 g2
    rw [List.map_cons, processAll, processAll]
    unfold andThen
    generalize a.process g = r at *
    generalize b.process (g.exchange κ f) = s at *
    obtain ⟨a', ea⟩ := r
    obtain ⟨b', eb⟩ := s
    simp only at h1 h2 h3 h4
    subst h2
    cases eb with
    | some e => exact ⟨h1, rfl, h3, h4⟩
    | none => exact ih h1 h3 h4 (fun x hx => hg x (List.mem_cons_of_mem _ hx))

theorem exchange_override (hf : Exchange κ f) (mp : List Word) : ∀ ps : List Word,
    override (ps.map f) (mp.map f) = (override ps mp).map f := by
  induction mp with
  | nil => exact fun _ => rfl
  | cons w mp ih =>
    intro ps
    have hle : (ps.map f).map Word.letter = ps.map Word.letter := by
      rw [List.map_map]
      exact List.map_congr_left (fun w _ => hf.letter w)
    have h1 : overrideOne (ps.map f) (f w) = (overrideOne ps w).map f := by
      unfold overrideOne
      rw [hle, hf.letter]
      split_ifs
      · rw [List.map_map, List.map_map]
        apply List.map_congr_left
        intro p _
        simp only [Function.comp_apply, hf.letter]
        split_ifs <;> rfl
      · simp
    unfold override at ih ⊢
    rw [List.map_cons, List.foldl_cons, List.foldl_cons, h1, ih]

theorem Scaled.modal {a b : Machine} (hf : Exchange κ f) (h : Scaled κ f k a b) (mp : List Word) :
    b.modalGcode (mp.map f) = (a.modalGcode mp).map (Option.map (GCode.exchange κ f)) := by
  unfold modalGcode Mode.motion
  rw [h.mode, h.ignore]
  by_cases hne : mp = []
  · subst hne; rfl
  rw [if_neg hne, if_neg (by simpa using hne)]
  cases a.mode 1 with
  | none => simp only [Option.map_none]; split_ifs <;> rfl
  | some g =>
    simp only [Option.map_some]
    have : (g.exchange κ f).word :: override (g.exchange κ f).params (mp.map f) = (g.word :: override g.params mp).map f := by
      rw [List.map_cons, ← exchange_override hf]
      rfl
    rw [this, hf.words2gcodes]
    cases Pygcode.words2gcodes (g.word :: override g.params mp) with
    | error e => rfl
    | ok q =>
      obtain ⟨gs, un⟩ := q
      simp only [Except.map, List.map_eq_nil_iff, ne_eq]
      split_ifs
      · rfl
      · rcases gs with _ | ⟨x, _ | ⟨y, zs⟩⟩ <;> rfl

theorem exchange_sort (hf : Exchange κ f) (gs : List GCode) :
    execSort (gs.map (GCode.exchange κ f)) = (execSort gs).map (GCode.exchange κ f) := by
  unfold execSort
  rw [List.map_insertionSort (r := fun a b : GCode => a.cls.order ≤ b.cls.order)
    (s := fun a b : GCode => a.cls.order ≤ b.cls.order)]
  intro a _ b _
  simp only [GCode.exchange, hf.order]

/-- No plane of the text has a normal axis scaled differently from R. -/
def TextLeveled (k : Axis → ℚ) (r : ℚ) (t : List Char) : Prop :=
  ∀ l, Line.ofText t = .ok l → ∀ g ∈ l.block.gcodes, Leveled k r g.cls

/-- The words of the second text are those of the first, replaced. -/
def Rewritten (f : Word → Word) (t t' : List Char) : Prop := lineWords t' = (lineWords t).map (List.map f)

theorem Scaled.str {a b : Machine} (hf : Exchange κ f) (hk : Scales k r f) (h : Scaled κ f k a b) (ha : Sound a)
    (hl : PlaneLeveled k r a) {t t' : List Char} (ht : Rewritten f t t') (hp : TextLeveled k r t) :
    Scaled κ f k (a.processStr t).1 (b.processStr t').1 ∧ (b.processStr t').2 = (a.processStr t).2 ∧
      Sound (a.processStr t).1 ∧ PlaneLeveled k r (a.processStr t).1 := by
  have hs := ha.str t
  have he := hf.ofText ht
  unfold processStr at hs ⊢
  cases hx : Line.ofText t with
  | error e =>
    rw [hx] at he
    cases hx' : Line.ofText t' with
    | error e' => rw [hx'] at he; cases he; exact ⟨h, rfl, ha, hl⟩
    | ok l' => rw [hx'] at he; cases he
  | ok l =>
    rw [hx] at he hs
    cases hx' : Line.ofText t' with
    | error e' => rw [hx'] at he; cases he
    | ok l' =>
      rw [hx'] at he
      simp only [Except.map, Except.ok.injEq] at he
      simp only at hs ⊢
      unfold processBlock processGcodes at hs ⊢
      rw [he]
      simp only [Block.exchange]
      rw [h.modal hf]
      have hb := line_block_ok hx
      cases hog : a.modalGcode l.block.modalParams with
      | error e => exact ⟨h, rfl, ha, hl⟩
      | ok og =>
        rw [hog] at hs
        simp only [Except.map]
        have hmap : execSort (l.block.gcodes.map (GCode.exchange κ f) ++ (og.map (GCode.exchange κ f)).toList) =
            (execSort (l.block.gcodes ++ og.toList)).map (GCode.exchange κ f) := by
          rw [← exchange_sort hf, List.map_append]
          cases og <;> rfl
        rw [hmap]
        obtain ⟨h1, h2, -, h4⟩ := h.all hf hk (gs := execSort (l.block.gcodes ++ og.toList)) ha.wf hl (by
          intro g hg
          rcases List.mem_append.1 ((List.perm_insertionSort _ _).mem_iff.1 hg) with hg | hg
          · exact ⟨hb.ok g hg, hp l hx g hg⟩
          · have hgo : og = some g := by simpa using hg
            subst hgo
            refine ⟨modalGcode_gok hog, ?_⟩
            by_cases hne : l.block.modalParams = []
            · rw [hne] at hog; cases hog
            cases hm : a.mode.motion with
            | none =>
              unfold modalGcode at hog
              rw [if_neg hne, hm] at hog
              simp only at hog
              split_ifs at hog
              cases hog
            | some y =>
              rw [modalGcode_closed a y hm (ha.ok 1 y hm).2.1 (ha.named 1 y hm) _ hne hb.unused] at hog
              split_ifs at hog
              cases hog
              intro n hn
              have := Cls.forall_of_all (p := fun c => !(c.group == some 1) || c.normalAxis == none) (by decide +kernel) y.cls
              rw [(ha.ok 1 y hm).1] at this
              rw [show (modalOf y l.block.modalParams).cls.normalAxis = none from
                (by simpa using this : y.cls.normalAxis = none)] at hn
              cases hn)
        exact ⟨h1, h2, hs, h4⟩

theorem Scaled.texts (hf : Exchange κ f) (hk : Scales k r f) {ts ts' : List (List Char)}
    (ht : List.Forall₂ (Rewritten f) ts ts') : ∀ {a b : Machine}, Scaled κ f k a b → Sound a → PlaneLeveled k r a →
    (∀ t ∈ ts, TextLeveled k r t) →
    Scaled κ f k (afterTexts a ts) (afterTexts b ts') ∧ Sound (afterTexts a ts) ∧ PlaneLeveled k r (afterTexts a ts) := by
  induction ht with
  | nil => exact fun h ha hl _ => ⟨h, ha, hl⟩
  | cons h1 _ ih =>
    intro a b h ha hl hp
    obtain ⟨h2, -, h4, h5⟩ := h.str hf hk ha hl h1 (hp _ List.mem_cons_self)
    exact ih h2 h4 h5 (fun t' ht' => hp t' (List.mem_cons_of_mem _ ht'))

/-- **C94**: let every word of a program be replaced so that axis words are scaled by the factor of their
axis, R words by the factor of the normal axis of every plane selected, and codes are exchanged for ones of
the same kind. From a scaled start, after any number of lines the positions are scaled too: absolute and
work position by the factor of each axis, and the range, with its ends exchanged for a negative factor. The
next line raises an exception exactly if the original one does, and the same one. -/
theorem C94_scaled (hf : Exchange κ f) (hk : Scales k r f) {a b : Machine} (ha : Sound a) (h : Scaled κ f k a b)
    (hl : PlaneLeveled k r a) {ts ts' : List (List Char)} (ht : List.Forall₂ (Rewritten f) ts ts')
    (hp : ∀ t ∈ ts, TextLeveled k r t) :
    (∀ x, (afterTexts b ts').absPos.val x = k x * (afterTexts a ts).absPos.val x) ∧
    (∃ p q, (afterTexts a ts).pos = .ok p ∧ (afterTexts b ts').pos = .ok q ∧ ∀ x, q.val x = k x * p.val x) ∧
    (∀ x ∈ a.axes, 0 ≤ k x → (afterTexts b ts').rangeMin.val x = k x * (afterTexts a ts).rangeMin.val x ∧
      (afterTexts b ts').rangeMax.val x = k x * (afterTexts a ts).rangeMax.val x) ∧
    (∀ x ∈ a.axes, k x ≤ 0 → (afterTexts b ts').rangeMin.val x = k x * (afterTexts a ts).rangeMax.val x ∧
      (afterTexts b ts').rangeMax.val x = k x * (afterTexts a ts).rangeMin.val x) ∧
    (∀ i, (afterTexts b ts').mode i = ((afterTexts a ts).mode i).map (GCode.exchange κ f)) ∧
    ∀ t t', Rewritten f t t' → TextLeveled k r t →
      ((afterTexts b ts').processStr t').2 = ((afterTexts a ts).processStr t).2 := by
  obtain ⟨h1, h2, h3⟩ := Scaled.texts hf hk ht h ha hl hp
  have hax : (afterTexts a ts).axes = a.axes := by
    clear h1 h2 h3 h hl ht hp
    induction ts generalizing a with
    | nil => rfl
    | cons t ts ih =>
      have he : (a.processStr t).1.axes = a.axes := congrArg Prod.fst (str_frozen ha.wf t)
      exact (ih (ha.str t)).trans he
  refine ⟨h1.abs.2.2, ?_, fun x hx => h1.range x (by rw [hax]; exact hx), fun x hx => h1.mirrored x (by rw [hax]; exact hx),
    h1.mode, fun t t' htt hpt => (h1.str hf hk h2 h3 htt hpt).2.1⟩
  refine ⟨_, _, pos_ok _ h2.wf h1.good.1, pos_ok _ (h1.wf h2.wf) h1.good.2, fun x => ?_⟩
  simp only
  rw [h1.abs.2.2, h1.sysOff, h1.offset.2]
  ring

/-! ## Scaling, mirroring, inches to millimetres -/

/-- Numbers are multiplied by a factor that depends on the letter. -/
def scaleWord (e : Char → ℚ) (w : Word) : Word :=
  match w.val with
  | .num q => ⟨w.letter, .num (e w.letter * q)⟩
  | .str _ => w

theorem wordClass_other {w : Word} (h : w.letter ∉ ['G', 'M', 'F', 'S', 'T', 'N', 'O']) : wordClass w = none := by
  cases hc : wordClass w with
  | none => rfl
  | some c => exact absurd (((C15_lookup false w c).1 hc).1.resolve_left (by decide)) h

/-- A feed rate is one whatever its value. -/
theorem feed_class (v : Val) : wordClass ⟨'F', v⟩ = some .feedRate := by
  refine (C15_lookup false _ _).2 ⟨.inr (by simp), .inr ⟨by decide +kernel, _, (by decide +kernel : Cls.matcher .feedRate = some (.letter 'F')), rfl⟩⟩

theorem scaleWord_exchange {e : Char → ℚ} (he : ∀ l ∈ ['G', 'M', 'S', 'T', 'N', 'O'], e l = 1) (hF : e 'F' ≠ 0) :
    Exchange id (scaleWord e) where
  letter := by
    rintro ⟨l, q | s⟩ <;> rfl
  cls := by
    intro w
    rw [Option.map_id_fun, id]
    by_cases hl : w.letter ∈ ['G', 'M', 'S', 'T', 'N', 'O']
    · obtain ⟨l, q | s⟩ := w
      · simp only [scaleWord]
        rw [show e l = 1 from he l hl, one_mul]
      · rfl
    · obtain ⟨l, q | s⟩ := w
      · by_cases h : l = 'F'
        · subst h
          simp only [scaleWord, feed_class]
        · have hn : l ∉ ['G', 'M', 'F', 'S', 'T', 'N', 'O'] := by
            simp only [List.mem_cons, List.not_mem_nil, or_false, not_or] at hl ⊢
            tauto
          simp only [scaleWord]
          rw [wordClass_other (w := ⟨l, .num q⟩) hn, wordClass_other (w := ⟨l, .num (e l * q)⟩) hn]
      · rfl
  inj := by
    rintro ⟨l, v⟩ ⟨l', v'⟩ hw hw' h
    have hnz : ∀ (l : Char) (v : Val), wordClass ⟨l, v⟩ ≠ none → e l ≠ 0 := by
      intro l v h
      by_cases hl : l ∈ ['G', 'M', 'S', 'T', 'N', 'O']
      · rw [he l hl]; exact one_ne_zero
      · by_cases hf : l = 'F'
        · subst hf; exact hF
        · exfalso
          refine h (wordClass_other ?_)
          simp only [List.mem_cons, List.not_mem_nil, or_false, not_or] at hl ⊢
          tauto
    have hl : l = l' := by
      have := congrArg Word.letter h
      cases v <;> cases v' <;> exact this
    subst hl
    have := hnz l v hw
    cases v <;> cases v' <;> simp only [scaleWord, Word.mk.injEq, Val.num.injEq, true_and, reduceCtorEq] at h ⊢
    · exact mul_left_cancel₀ this h
    · exact h
  params := fun _ => rfl
  modalParams := fun _ => rfl
  group := fun _ => rfl
  order := fun _ => rfl
  proc := fun _ => rfl
  system := fun _ => rfl
  normal := fun _ => rfl
  incr := fun _ => rfl
  toR := fun _ => rfl

theorem scaleWord_num (e : Char → ℚ) (w : Word) : (scaleWord e w).num = e w.letter * w.num := by
  obtain ⟨l, q | s⟩ := w
  · rfl
  · exact (mul_zero _).symm

/-- Pairs of codes that are exchanged. -/
def swapWord (ps : List ((Char × ℚ) × (Char × ℚ))) (w : Word) : Word :=
  match ps.find? (fun p => w = keyWord p.1) with
  | some p => keyWord p.2
  | none => w

/-- The exchange of codes of one kind. -/
def swapCls (ps : List ((Char × ℚ) × (Char × ℚ))) (c : Cls) : Cls :=
  match ps.find? (fun p => c.wordKey = some p.1) with
  | some p => (wordClass (keyWord p.2)).getD c
  | none => c

/-- The pairs are of the same kind, and each is listed both ways. -/
def goodSwap (ps : List ((Char × ℚ) × (Char × ℚ))) : Bool :=
  ps.all (fun p => p.2.1 == p.1.1 && (['G', 'M'].contains p.1.1) && (swapWord ps (keyWord p.2) == keyWord p.1) &&
    (wordClass (keyWord p.2) == (wordClass (keyWord p.1)).map (swapCls ps))) &&
  Cls.all.all (fun c => ((swapCls ps c).params == c.params) && ((swapCls ps c).modalParams == c.modalParams) &&
    ((swapCls ps c).group == c.group) && ((swapCls ps c).order == c.order) && ((swapCls ps c).proc == c.proc) &&
    ((swapCls ps c).coordSys == c.coordSys) && ((swapCls ps c).normalAxis == c.normalAxis) &&
    ((swapCls ps c).isSub .incrementalDistanceMode == c.isSub .incrementalDistanceMode) &&
    ((swapCls ps c).isSub .cannedCycleReturnToR == c.isSub .cannedCycleReturnToR))

theorem swapWord_exchange {ps : List ((Char × ℚ) × (Char × ℚ))} (h : goodSwap ps = true) :
    Exchange (swapCls ps) (swapWord ps) := by
  unfold goodSwap at h
  simp only [Bool.and_eq_true, List.all_eq_true, beq_iff_eq] at h
  obtain ⟨hp, hc⟩ := h
  have hc' := fun c => hc c (Cls.mem_all c)
  have hcase : ∀ w, (∃ p ∈ ps, w = keyWord p.1 ∧ swapWord ps w = keyWord p.2) ∨
      (swapWord ps w = w ∧ ∀ p ∈ ps, w ≠ keyWord p.1) := by
    intro w
    unfold swapWord
    cases hf : ps.find? (fun p => w = keyWord p.1) with
    | some p => exact .inl ⟨p, List.mem_of_find?_eq_some hf, by simpa using List.find?_some hf, rfl⟩
    | none => exact .inr ⟨rfl, fun p hp => by simpa using List.find?_eq_none.1 hf p hp⟩
  have hinv : ∀ w, swapWord ps (swapWord ps w) = w := by
    intro w
    rcases hcase w with ⟨p, hm, rfl, he⟩ | ⟨he, -⟩
    · rw [he, (hp p hm).1.2]
    · rw [he, he]
  refine ⟨fun w => ?_, fun w => ?_, fun w w' _ _ h => ?_, fun c => (hc' c).1.1.1.1.1.1.1.1, fun c => (hc' c).1.1.1.1.1.1.1.2,
    fun c => (hc' c).1.1.1.1.1.1.2, fun c => (hc' c).1.1.1.1.1.2, fun c => (hc' c).1.1.1.1.2, fun c => (hc' c).1.1.1.2,
    fun c => (hc' c).1.1.2, fun c => (hc' c).1.2, fun c => (hc' c).2⟩
  · rcases hcase w with ⟨p, hm, rfl, he⟩ | ⟨he, -⟩
    · rw [he]; exact (hp p hm).1.1.1
    · rw [he]
  · rcases hcase w with ⟨p, hm, rfl, he⟩ | ⟨he, hne⟩
    · rw [he]; exact (hp p hm).2
    · rw [he]
      cases hw : wordClass w with
      | none => rfl
      | some c =>
        have : ps.find? (fun p => c.wordKey = some p.1) = none := by
          rw [List.find?_eq_none]
          intro p hm
          simp only [decide_eq_true_eq]
          intro hk
          obtain ⟨-, ⟨l, q, hk', rfl⟩ | ⟨hk', -⟩⟩ := (C15_lookup false w c).1 hw
          · rw [hk] at hk'
            exact hne p hm (by rw [Option.some.inj hk']; rfl)
          · rw [hk] at hk'; cases hk'
        simp only [Option.map_some, swapCls, this]
  · rw [← hinv w, h, hinv]

theorem Exchange.comp {κ' : Cls → Cls} {f' : Word → Word} (h : Exchange κ f) (h' : Exchange κ' f') :
    Exchange (κ' ∘ κ) (f' ∘ f) where
  letter := fun w => (h'.letter _).trans (h.letter w)
  cls := fun w => by
    rw [Function.comp_apply, h'.cls, h.cls, Option.map_map]
  inj := fun w w' hw hw' he => by
    have hne : ∀ w, wordClass w ≠ none → wordClass (f w) ≠ none := by
      intro w hw
      rw [h.cls]
      simpa using hw
    exact h.inj w w' hw hw' (h'.inj _ _ (hne w hw) (hne w' hw') he)
  params := fun c => (h'.params _).trans (h.params c)
  modalParams := fun c => (h'.modalParams _).trans (h.modalParams c)
  group := fun c => (h'.group _).trans (h.group c)
  order := fun c => (h'.order _).trans (h.order c)
  proc := fun c => (h'.proc _).trans (h.proc c)
  system := fun c => (h'.system _).trans (h.system c)
  normal := fun c => (h'.normal _).trans (h.normal c)
  incr := fun c => (h'.incr _).trans (h.incr c)
  toR := fun c => (h'.toR _).trans (h.toR c)

theorem swapWord_other {ps : List ((Char × ℚ) × (Char × ℚ))} (h : goodSwap ps = true) {w : Word}
    (hw : w.letter ∉ ['G', 'M']) : swapWord ps w = w := by
  unfold swapWord
  cases hf : ps.find? (fun p => w = keyWord p.1) with
  | none => rfl
  | some p =>
    exfalso
    have hm := List.mem_of_find?_eq_some hf
    have he : w = keyWord p.1 := by simpa using List.find?_some hf
    unfold goodSwap at h
    simp only [Bool.and_eq_true, List.all_eq_true] at h
    have := (h.1 p hm).1.1.2
    rw [he] at hw
    exact hw (by simpa [keyWord] using this)

/-- Scaling letter by letter, and exchanging codes. -/
theorem adapt_exchange {e : Char → ℚ} (he : ∀ l ∈ ['G', 'M', 'S', 'T', 'N', 'O'], e l = 1) (hF : e 'F' ≠ 0)
    {ps : List ((Char × ℚ) × (Char × ℚ))} (h : goodSwap ps = true) :
    Exchange (swapCls ps) (swapWord ps ∘ scaleWord e) :=
  (scaleWord_exchange he hF).comp (swapWord_exchange h)

theorem axis_letter {l : Char} {a : Axis} (h : Axis.ofLetter l = some a) : l = a.letter := by
  unfold Axis.ofLetter at h
  split_ifs at h with h1 h2 h3 h4 h5 h6 h7 h8 h9 <;> cases h <;> assumption

theorem adapt_scales {e : Char → ℚ} (hL : e 'L' = 1) {ps : List ((Char × ℚ) × (Char × ℚ))} (h : goodSwap ps = true) :
    Scales (fun a => e a.letter) (e 'R') (swapWord ps ∘ scaleWord e) := by
  have hle : ∀ w, (scaleWord e w).letter = w.letter := by rintro ⟨l, q | s⟩ <;> rfl
  have key : ∀ w : Word, w.letter ∉ ['G', 'M'] → ((swapWord ps ∘ scaleWord e) w).num = e w.letter * w.num := by
    intro w hw
    rw [Function.comp_apply, swapWord_other h (by rw [hle]; exact hw), scaleWord_num]
  refine ⟨fun w a ha => ?_, fun w hw => ?_, fun w hw => ?_⟩
  · have := axis_letter ha
    rw [key w (by rw [this]; cases a <;> decide), this]
  · rw [key w (by rw [hw]; decide), hw]
  · rw [key w (by rw [hw]; decide), hw, hL, one_mul]

/-- A new machine with nothing set is its own image. -/
theorem null_scaled (κ : Cls → Cls) (f : Word → Word) (k : Axis → ℚ) (ax : Finset Axis) :
    Scaled κ f k (newWith ax Mode.null) (newWith ax Mode.null) where
  axes := rfl
  ignore := rfl
  mode := fun _ => rfl
  cur := rfl
  offset := ⟨rfl, fun x => (mul_zero (k x)).symm⟩
  systems := ⟨_, _, rfl, rfl, fun _ => ⟨rfl, fun x => (mul_zero (k x)).symm⟩⟩
  abs := ⟨rfl, rfl, fun x => (mul_zero (k x)).symm⟩
  loAxes := subset_rfl
  hiAxes := subset_rfl
  range := fun x _ _ => ⟨(mul_zero (k x)).symm, (mul_zero (k x)).symm⟩
  mirrored := fun x _ _ => ⟨(mul_zero (k x)).symm, (mul_zero (k x)).symm⟩

/-- The factors of lengths, feed rates included: `s`, all others 1. -/
def lengthFactor (s : ℚ) (l : Char) : ℚ :=
  if l ∈ ['X', 'Y', 'Z', 'U', 'V', 'W', 'I', 'J', 'K', 'R', 'Q', 'F'] then s else 1

/-- Inches and millimetres. -/
def unitPairs : List ((Char × ℚ) × (Char × ℚ)) := [(('G', 20), ('G', 21)), (('G', 21), ('G', 20))]

/-- The factor of a mirror image in X. -/
def mirrorFactor (l : Char) : ℚ := if l ∈ ['X', 'U', 'I'] then -1 else 1

/-- What a mirror image exchanges: the sense of arcs, the sides of cutter compensation, the sense of the
spindle. -/
def mirrorPairs : List ((Char × ℚ) × (Char × ℚ)) :=
  [(('G', 2), ('G', 3)), (('G', 3), ('G', 2)), (('G', 41), ('G', 42)), (('G', 42), ('G', 41)),
    (('G', 411 / 10), ('G', 421 / 10)), (('G', 421 / 10), ('G', 411 / 10)), (('M', 3), ('M', 4)), (('M', 4), ('M', 3))]

theorem none_good : goodSwap [] = true := by decide +kernel
theorem unit_good : goodSwap unitPairs = true := by decide +kernel
theorem mirror_good : goodSwap mirrorPairs = true := by decide +kernel

/-- All planes have normal axes among X, Y and Z. -/
theorem leveled_xyz {s : ℚ} (hX : k .X = s) (hY : k .Y = s) (hZ : k .Z = s) (c : Cls) : Leveled k s c := by
  intro n hn
  have := Cls.forall_of_all (p := fun c => match c.normalAxis.bind Axis.ofLetter with
    | none => true
    | some n => n == .X || n == .Y || n == .Z) (by decide +kernel) c
  rw [hn] at this
  simp only [Bool.or_eq_true, beq_iff_eq] at this
  rcases this with (rfl | rfl) | rfl <;> assumption

/-- **C94** (size): with all lengths of the program multiplied by `s`, a new machine without a mode gets to
positions that are `s` times as far, in X, Y and Z, along the same angles. -/
theorem C94_size (s : ℚ) (hs : s ≠ 0) {ts ts' : List (List Char)}
    (ht : List.Forall₂ (Rewritten (scaleWord (lengthFactor s))) ts ts') :
    (∀ x, (afterTexts newNull ts').absPos.val x =
      (if x = .A ∨ x = .B ∨ x = .C then 1 else s) * (afterTexts newNull ts).absPos.val x) ∧
    ∀ t t', Rewritten (scaleWord (lengthFactor s)) t t' →
      ((afterTexts newNull ts').processStr t').2 = ((afterTexts newNull ts).processStr t).2 := by
  have hex := scaleWord_exchange (e := lengthFactor s) (by
    intro l hl
    simp only [List.mem_cons, List.not_mem_nil, or_false] at hl
    rcases hl with rfl | rfl | rfl | rfl | rfl | rfl <;> rfl) hs
  have hsc := adapt_scales (e := lengthFactor s) rfl none_good
  have hlev : ∀ c, Leveled (fun a : Axis => lengthFactor s a.letter) (lengthFactor s 'R') c := leveled_xyz rfl rfl rfl
  obtain ⟨h1, -, -, -, -, h2⟩ := C94_scaled hex hsc (reader_null xyz).sound (null_scaled _ _ _ _) (fun _ _ => hlev _) ht
    (fun _ _ _ _ _ _ => hlev _)
  refine ⟨fun x => ?_, fun t t' htt => h2 t t' htt (fun _ _ _ _ => hlev _)⟩
  refine (h1 x).trans ?_
  cases x <;> rfl

/-- **C94** (units): a program in inches, rewritten in millimetres. pygcode's positions are the numbers of the
program (see C43), so they are 25.4 times as large. -/
theorem C94_units {ts ts' : List (List Char)}
    (ht : List.Forall₂ (Rewritten (swapWord unitPairs ∘ scaleWord (lengthFactor (127 / 5)))) ts ts') :
    ∀ x, x ≠ .A → x ≠ .B → x ≠ .C →
      (afterTexts newNull ts').absPos.val x = 127 / 5 * (afterTexts newNull ts).absPos.val x := by
  have hex := adapt_exchange (e := lengthFactor (127 / 5)) (by
    intro l hl
    simp only [List.mem_cons, List.not_mem_nil, or_false] at hl
    rcases hl with rfl | rfl | rfl | rfl | rfl | rfl <;> rfl) (show (127 / 5 : ℚ) ≠ 0 by norm_num) unit_good
  have hlev : ∀ c, Leveled (fun a : Axis => lengthFactor (127 / 5) a.letter) (lengthFactor (127 / 5) 'R') c :=
    leveled_xyz rfl rfl rfl
  obtain ⟨h1, -⟩ := C94_scaled hex (adapt_scales rfl unit_good) (reader_null xyz).sound (null_scaled _ _ _ _)
    (fun _ _ => hlev _) ht (fun _ _ _ _ _ _ => hlev _)
  intro x hA hB hC
  refine (h1 x).trans ?_
  cases x <;> first | rfl | contradiction

/-- **C94** (mirror): a program mirrored in X (X and I negated, arcs, cutter compensation and spindle the other
way) and without the plane YZ: the positions are mirrored. -/
theorem C94_mirror {ts ts' : List (List Char)}
    (ht : List.Forall₂ (Rewritten (swapWord mirrorPairs ∘ scaleWord mirrorFactor)) ts ts')
    (hp : ∀ t ∈ ts, ∀ l, Line.ofText t = .ok l → ∀ g ∈ l.block.gcodes, g.cls ≠ .selectYZPlane) :
    (afterTexts newNull ts').absPos.val .X = -(afterTexts newNull ts).absPos.val .X ∧
    (afterTexts newNull ts').absPos.val .Y = (afterTexts newNull ts).absPos.val .Y ∧
    (afterTexts newNull ts').absPos.val .Z = (afterTexts newNull ts).absPos.val .Z ∧
    (afterTexts newNull ts').rangeMin.val .X = -(afterTexts newNull ts).rangeMax.val .X ∧
    (afterTexts newNull ts').rangeMax.val .X = -(afterTexts newNull ts).rangeMin.val .X := by
  have hex := adapt_exchange (e := mirrorFactor) (by
    intro l hl
    simp only [List.mem_cons, List.not_mem_nil, or_false] at hl
    rcases hl with rfl | rfl | rfl | rfl | rfl | rfl <;> rfl) (show (1 : ℚ) ≠ 0 from one_ne_zero) mirror_good
  have hlev : ∀ c, c ≠ .selectYZPlane → Leveled (fun a : Axis => mirrorFactor a.letter) (mirrorFactor 'R') c := by
    intro c hc n hn
    have := Cls.forall_of_all (p := fun c => c == .selectYZPlane || match c.normalAxis.bind Axis.ofLetter with
      | none => true
      | some n => n == .Y || n == .Z) (by decide +kernel) c
    rw [hn] at this
    simp only [Bool.or_eq_true, beq_iff_eq, hc, false_or] at this
    rcases this with rfl | rfl <;> rfl
  obtain ⟨h1, -, -, h2, -⟩ := C94_scaled hex (adapt_scales rfl mirror_good) (reader_null xyz).sound (null_scaled _ _ _ _)
    (fun _ h => nomatch h) ht (fun t h1 l h2 g h3 => hlev _ (hp t h1 l h2 g h3))
  obtain ⟨h3, h4⟩ := h2 .X (by decide) (by decide +kernel)
  refine ⟨(h1 .X).trans ?_, (h1 .Y).trans ?_, (h1 .Z).trans ?_, h3.trans ?_, h4.trans ?_⟩
  · exact neg_one_mul _
  · exact one_mul _
  · exact one_mul _
  · exact neg_one_mul _
  · exact neg_one_mul _

/-! ## Cases -/

/-- Check of the words of two texts. -/
def rewrittenB (f : Word → Word) : List (List Char) → List (List Char) → Bool
  | [], [] => true
  | t :: ts, t' :: ts' =>
    (match lineWords t, lineWords t' with
      | .ok ws, .ok ws' => ws' == ws.map f
      | .error e, .error e' => e == e'
      | _, _ => false) && rewrittenB f ts ts'
  | _, _ => false

theorem rewrittenB_sound {f : Word → Word} {ts ts' : List (List Char)} (h : rewrittenB f ts ts' = true) :
    List.Forall₂ (Rewritten f) ts ts' := by
  induction ts generalizing ts' with
  | nil =>
    cases ts' with
    | nil => exact .nil
    | cons _ _ => cases h
  | cons t ts ih =>
    cases ts' with
    | nil => cases h
    | cons t' ts' =>
      rw [rewrittenB, Bool.and_eq_true] at h
      refine .cons ?_ (ih h.2)
      have h1 := h.1
      unfold Rewritten
      cases hw : lineWords t <;> cases hw' : lineWords t' <;> rw [hw, hw'] at h1 <;> simp_all [Except.map]

/-- Moves, an arc, drilling with and without a repeated cycle, and a retained word. -/
def scaleTexts : List (List Char) :=
  ["G17 G90 G0 X1 Y2 Z5", "G1 Z-.5 F100 (down)", "G2 X4 Y6 I1 J1", "G91 G99 G81 X3 Z-1 R1 L2", "G98 G81 Y5 Z-3 R2", "X-9",
    "G80 X1", "G90 G1 X7 Z0", "G1 X1 X2"].map String.toList

/-- Twice the size. -/
def scaleTexts2 : List (List Char) :=
  ["G17 G90 G0 X2 Y4 Z10", "G1 Z-1 F200", "G2 X8 Y12 I2 J2", "G91 G99 G81 X6 Z-2 R2 L2", "G98 G81 Y10 Z-6 R4", "x-18",
    "G80 X2", "G90 G1 X14 Z0", "G1 X2 X4"].map String.toList

example := C94_size 2 (by norm_num) (rewrittenB_sound (ts := scaleTexts) (ts' := scaleTexts2) (by decide +kernel))

example : (scaleTexts.map (fun t => ((afterTexts newNull (scaleTexts.takeWhile (· ≠ t))).processStr t).2)) =
    [none, none, none, none, none, none, none, none, some .param] ∧
    (afterTexts newNull (scaleTexts.take 6)).absPos.val .X = 1 ∧
    (afterTexts newNull (scaleTexts2.take 6)).absPos.val .X = 2 ∧
    (afterTexts newNull scaleTexts2).absPos.val .X = 14 := by decide +kernel

/-- Inches, and the same in millimetres. -/
example := C94_units (rewrittenB_sound
  (ts := ["G20 G90 G0 X1 Y-2", "G91 G1 Y.5 F10", "N10 T1 M6"].map String.toList)
  (ts' := ["G21 G90 G0 X25.4 Y-50.8", "G91 G1 Y12.7 F254", "N10 T1 M6"].map String.toList) (by decide +kernel))

/-- A program and its mirror image. -/
def mirrorTexts : List (List Char) :=
  ["G17 G91 M3 S100 G41 G0 X1 Y2", "G2 X2 Y0 I1 J0 F10", "G99 G81 X3 Z-1 R1 L2", "G18 G3 X1 Z1 R1"].map String.toList
/-- see `mirrorTexts` -/
def mirrorTexts2 : List (List Char) :=
  ["G17 G91 M4 S100 G42 G0 X-1 Y2", "G3 X-2 Y0 I-1 J0 F10", "G99 G81 X-3 Z-1 R1 L2", "G18 G2 X-1 Z1 R1"].map String.toList

example := C94_mirror (rewrittenB_sound (ts := mirrorTexts) (ts' := mirrorTexts2) (by decide +kernel)) (by
  have h : ∀ t ∈ mirrorTexts, (match Line.ofText t with
    | .ok l => l.block.gcodes.all (fun g => g.cls != .selectYZPlane)
    | .error _ => true) = true := by decide +kernel
  intro t ht l hl g hg
  have := h t ht
  rw [hl] at this
  simpa using List.all_eq_true.1 this g hg)
example : (afterTexts newNull mirrorTexts).absPos.val .X = 10 ∧ (afterTexts newNull mirrorTexts2).absPos.val .X = -10 ∧
    (afterTexts newNull mirrorTexts2).absPos.val .Z = 3 ∧ (afterTexts newNull mirrorTexts2).rangeMin.val .X = -10 := by
  decide +kernel

end Pygcode
