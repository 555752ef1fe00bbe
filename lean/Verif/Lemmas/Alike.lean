import Verif.Props.Modal
import Verif.Props.Omit

/-!
# Machines that differ only in the order in which gcodes of the mode list their parameters
-/

namespace Pygcode
open Props Machine Spec

/-- Same machine, up to the order of the parameters of the gcodes in the mode. -/
structure Alike (a b : Machine) : Prop where
  axes : a.axes = b.axes
  ignore : a.ignoreInvalid = b.ignoreInvalid
  state : a.state = b.state
  abs : a.absPos = b.absPos
  lo : a.rangeMin = b.rangeMin
  hi : a.rangeMax = b.rangeMax
  mode : ∀ k, Option.Rel SameGCode (a.mode k) (b.mode k)

theorem Props.SameGCode.rfl' (g : GCode) : SameGCode g g := ⟨rfl, rfl, .refl _⟩

theorem Props.SameGCode.symm' {a b : GCode} (h : SameGCode a b) : SameGCode b a := ⟨h.1.symm, h.2.1.symm, h.2.2.symm⟩

theorem Props.SameGCode.trans' {a b c : GCode} (h : SameGCode a b) (h' : SameGCode b c) : SameGCode a c :=
  ⟨h.1.trans h'.1, h.2.1.trans h'.2.1, h.2.2.trans h'.2.2⟩

theorem Alike.refl (a : Machine) : Alike a a :=
  ⟨rfl, rfl, rfl, rfl, rfl, rfl, fun k => by
    cases a.mode k with
    | none => exact .none
    | some g => exact .some (Props.SameGCode.rfl' g)⟩

theorem Alike.trans {a b c : Machine} (h : Alike a b) (h' : Alike b c) : Alike a c :=
  ⟨h.axes.trans h'.axes, h.ignore.trans h'.ignore, h.state.trans h'.state, h.abs.trans h'.abs,
    h.lo.trans h'.lo, h.hi.trans h'.hi, fun k => by
      have h1 := h.mode k
      have h2 := h'.mode k
      generalize a.mode k = x at h1
      generalize b.mode k = y at h1 h2
      generalize c.mode k = z at h2
      cases h1 with
      | none => cases h2; exact .none
      | some s => cases h2 with
        | some s' => exact .some (s.trans' s')⟩

theorem Props.SameGCode.gok {a b : GCode} (h : SameGCode a b) (ha : GOK a) : GOK b :=
  ⟨((h.2.2.map Word.letter).nodup_iff).1 ha.1, fun p hp => h.1 ▸ ha.2 p (h.2.2.mem_iff.2 hp)⟩

theorem perm_find {ps qs : List Word} (h : ps.Perm qs) (hn : (ps.map Word.letter).Nodup) (l : Char) :
    ps.find? (fun w => w.letter == l) = qs.find? (fun w => w.letter == l) := by
  have key : ∀ (xs : List Word), (xs.map Word.letter).Nodup → ∀ w,
      xs.find? (fun w => w.letter == l) = some w ↔ w ∈ xs ∧ w.letter = l := by
    intro xs hx w
    constructor
    · intro h
      exact ⟨List.mem_of_find?_eq_some h, by simpa using List.find?_some h⟩
    · rintro ⟨hm, rfl⟩
      cases hf : xs.find? (fun v => v.letter == w.letter) with
      | none =>
        rw [List.find?_eq_none] at hf
        exact absurd (by simp) (hf w hm)
      | some v =>
        have h1 := List.mem_of_find?_eq_some hf
        have h2 : v.letter = w.letter := by simpa using List.find?_some hf
        exact congrArg some (List.inj_on_of_nodup_map hx h1 hm h2)
  have hn' := ((h.map Word.letter).nodup_iff).1 hn
  cases hp : ps.find? (fun w => w.letter == l) with
  | some w =>
    obtain ⟨h1, h2⟩ := (key ps hn w).1 hp
    exact ((key qs hn' w).2 ⟨h.mem_iff.1 h1, h2⟩).symm
  | none =>
    symm
    rw [List.find?_eq_none] at hp ⊢
    exact fun w hw => hp w (h.mem_iff.2 hw)

theorem Props.SameGCode.param {a b : GCode} (h : SameGCode a b) (ha : GOK a) (l : Char) : a.param l = b.param l :=
  perm_find h.2.2 ha.1 l

theorem Props.SameGCode.num {a b : GCode} (h : SameGCode a b) (ha : GOK a) (l : Char) : a.num? l = b.num? l := by
  unfold GCode.num?; rw [h.param ha]

theorem Props.SameGCode.get {a b : GCode} (h : SameGCode a b) (ha : GOK a) (l : Char) : a.get l = b.get l := by
  unfold GCode.get; rw [h.param ha, h.1]

theorem Props.SameGCode.copy {a b : GCode} (h : SameGCode a b) : SameGCode (copyOf a) (copyOf b) := by
  refine ⟨h.1, h.2.1, ?_⟩
  show (a.params.filter _).Perm (b.params.filter _)
  rw [h.1]
  exact h.2.2.filter _

/-! ### Moves -/

theorem lookup_perm {cs cs' : List (Axis × ℚ)} (h : cs.Perm cs') (hn : (cs.map Prod.fst).Nodup) (a : Axis) :
    Position.lookup cs a = Position.lookup cs' a := by
  have key : ∀ (xs : List (Axis × ℚ)), (xs.map Prod.fst).Nodup → ∀ v,
      Position.lookup xs a = some v ↔ (a, v) ∈ xs := by
    intro xs hx v
    unfold Position.lookup
    induction xs with
    | nil => simp
    | cons x xs ih =>
      simp only [List.map_cons, List.nodup_cons] at hx
      rw [List.find?_cons]
      by_cases hxa : x.1 = a
      · simp only [hxa, beq_self_eq_true, Option.map_some, Option.some.injEq, List.mem_cons]
        constructor
        · rintro rfl; left; rw [← hxa]
        · rintro (h | h)
          · rw [← h]
          · exact absurd (hxa ▸ List.mem_map_of_mem (f := Prod.fst) h) hx.1
      · simp only [beq_eq_false_iff_ne.2 hxa, List.mem_cons, ih hx.2]
        constructor
        · exact .inr
        · rintro (h | h)
          · exact absurd (by rw [← h]) hxa
          · exact h
  have hn' := ((h.map Prod.fst).nodup_iff).1 hn
  cases hp : Position.lookup cs a with
  | some v => exact ((key cs' hn' v).2 (h.mem_iff.1 ((key cs hn v).1 hp))).symm
  | none =>
    cases hq : Position.lookup cs' a with
    | none => rfl
    | some v => rw [(key cs hn v).2 (h.mem_iff.2 ((key cs' hn' v).1 hq))] at hp; cases hp

theorem perm_any {α} {xs ys : List α} (h : xs.Perm ys) (p : α → Bool) : xs.any p = ys.any p := by
  rw [Bool.eq_iff_iff, List.any_eq_true, List.any_eq_true]
  exact ⟨fun ⟨x, hx, hp⟩ => ⟨x, h.mem_iff.1 hx, hp⟩, fun ⟨x, hx, hp⟩ => ⟨x, h.mem_iff.2 hx, hp⟩⟩

theorem given_nodup {cs : Coords} (hn : (cs.map Prod.fst).Nodup) :
    ((cs.filterMap (fun c => c.2.map (fun v => (c.1, v)))).map Prod.fst).Nodup := by
  refine hn.sublist ?_
  clear hn
  induction cs with
  | nil => simp
  | cons c cs ih =>
    obtain ⟨a, _ | v⟩ := c
    · simpa using ih.cons a
    · simpa using ih

/-- The order in which coordinates are given does not matter. -/
theorem move_perm (m : Machine) {cs cs' : Coords} (h : cs.Perm cs') (hn : (cs.map Prod.fst).Nodup) :
    m.move cs = m.move cs' := by
  have hn' := ((h.map Prod.fst).nodup_iff).1 hn
  unfold move
  by_cases hi : m.incremental = true
  · simp only [hi, if_true]
    have hf := h.filter (fun c => decide (c.1 ∈ m.axes))
    have hfn : ((cs.filter (fun c => decide (c.1 ∈ m.axes))).map Prod.fst).Nodup :=
      hn.sublist (List.Sublist.map _ List.filter_sublist)
    rw [perm_any hf]
    have hp : Position.make m.axes .mm ((cs.filter (fun c => decide (c.1 ∈ m.axes))).filterMap (fun c => c.2.map (fun v => (c.1, v)))) =
        Position.make m.axes .mm ((cs'.filter (fun c => decide (c.1 ∈ m.axes))).filterMap (fun c => c.2.map (fun v => (c.1, v)))) := by
      unfold Position.make
      congr 1
      funext a
      rw [lookup_perm (hf.filterMap _) (given_nodup hfn)]
    rw [hp]
  · simp only [hi, Bool.false_eq_true, if_false]
    cases hpos : m.pos with
    | error e => rfl
    | ok p =>
      simp only
      rw [perm_any h, perm_any h (fun c => c.2.isNone)]
      by_cases hb : cs'.any (fun c => decide (c.1 ∉ p.axes)) = true
      · simp only [hb, if_true]
      · have hb' : ∀ c ∈ cs', c.1 ∈ p.axes := by
          intro c hc
          by_contra hx
          exact hb (List.any_eq_true.2 ⟨c, hc, by simpa using hx⟩)
        have hu : p.update (cs.filterMap (fun c => c.2.map (fun v => (c.1, v)))) =
            p.update (cs'.filterMap (fun c => c.2.map (fun v => (c.1, v)))) := by
          rw [update_eq p _ (given_nodup hn), update_eq p _ (given_nodup hn')]
          · congr 2
            funext a
            rw [lookup_perm (h.filterMap _) (given_nodup hn)]
          · intro c hc
            obtain ⟨d, hd, he⟩ := List.mem_filterMap.1 hc
            obtain ⟨v, -, rfl⟩ := Option.map_eq_some_iff.1 he
            exact hb' d hd
          · intro c hc
            obtain ⟨d, hd, he⟩ := List.mem_filterMap.1 hc
            obtain ⟨v, -, rfl⟩ := Option.map_eq_some_iff.1 he
            exact hb' d (h.mem_iff.1 hd)
        rw [hu]

/-- Machine `a` with the mode of an alike machine. -/
theorem Alike.eq {a b : Machine} (h : Alike a b) : b = { a with mode := b.mode } := by
  obtain ⟨ax, ig, md, st, p, lo, hi⟩ := a
  obtain ⟨ax', ig', md', st', p', lo', hi'⟩ := b
  have h1 := h.axes; have h2 := h.ignore; have h3 := h.state; have h4 := h.abs; have h5 := h.lo; have h6 := h.hi
  simp only at h1 h2 h3 h4 h5 h6
  subst h1 h2 h3 h4 h5 h6
  rfl

theorem Alike.slot {a b : Machine} (h : Alike a b) (k : ℕ) (c : Cls → Bool) :
    (match a.mode k with | some g => c g.cls | none => false) =
      (match b.mode k with | some g => c g.cls | none => false) := by
  have := h.mode k
  generalize a.mode k = x at this
  generalize b.mode k = y at this
  cases this with
  | none => rfl
  | some s => simp only [s.1]

/-- Outcomes that are alike: the machines, and the same exception, if any. -/
def AlikeRes (r s : MRes) : Prop := Alike r.1 s.1 ∧ r.2 = s.2

theorem move_withMode (a : Machine) (md : Mode) (cs : Coords)
    (h : ({ a with mode := md } : Machine).incremental = a.incremental) :
    ({ a with mode := md } : Machine).move cs = ({ (a.move cs).1 with mode := md }, (a.move cs).2) := by
  have hset : ∀ q, ({ a with mode := md } : Machine).setPos q = ({ (a.setPos q).1 with mode := md }, (a.setPos q).2) := by
    intro q
    unfold setPos
    have : ({ a with mode := md } : Machine).work2abs q = a.work2abs q := rfl
    rw [this]
    cases a.work2abs q with
    | error e => rfl
    | ok x =>
      simp only
      unfold updateRange
      simp only
      cases Position.min x a.rangeMin with
      | error e => rfl
      | ok lo =>
        simp only
        cases Position.max x a.rangeMax <;> rfl
  have hpos : ({ a with mode := md } : Machine).pos = a.pos := rfl
  unfold move
  rw [h, hpos]
  by_cases hi : a.incremental = true
  · simp only [hi, if_true]
    cases a.pos with
    | error e => rfl
    | ok p =>
      simp only
      split_ifs with h1
      · rfl
      · cases p.add _ with
        | error e => rfl
        | ok q => exact hset q
  · simp only [hi, Bool.false_eq_true, if_false]
    cases a.pos with
    | error e => rfl
    | ok p =>
      simp only
      split_ifs with h1 h2
      · rfl
      · rfl
      · generalize p.update _ = r
        obtain ⟨q, _ | e⟩ := r
        · exact hset q
        · rfl

theorem move_alike {a b : Machine} (h : Alike a b) {cs cs' : Coords} (hp : cs.Perm cs')
    (hn : (cs.map Prod.fst).Nodup) : AlikeRes (a.move cs) (b.move cs') := by
  rw [← move_perm b hp hn, h.eq]
  rw [move_withMode a b.mode cs (by
    have := h.slot 3 (fun c => c.isSub .incrementalDistanceMode)
    exact this.symm)]
  refine ⟨⟨rfl, rfl, rfl, rfl, rfl, rfl, ?_⟩, rfl⟩
  have hmm : (a.move cs).1.mode = a.mode := by
    have := move_withMode a a.mode cs rfl
    exact congrArg (fun r : MRes => r.1.mode) this
  intro k
  show Option.Rel _ ((a.move cs).1.mode k) (b.mode k)
  rw [hmm]
  exact h.mode k

theorem moves_alike {cs cs' : Coords} (hp : cs.Perm cs') (hn : (cs.map Prod.fst).Nodup) (n : ℕ) :
    ∀ {a b : Machine}, Alike a b → AlikeRes (a.moves cs n) (b.moves cs' n) := by
  induction n with
  | zero => exact fun h => ⟨h, rfl⟩
  | succ n ih =>
    intro a b h
    have hm := move_alike h hp hn
    unfold moves andThen
    generalize a.move cs = r at hm
    generalize b.move cs' = s at hm
    obtain ⟨r, er⟩ := r
    obtain ⟨s, es⟩ := s
    obtain ⟨h1, h2⟩ := hm
    simp only at h1 h2
    subst h2
    cases er with
    | none => exact ih h1
    | some e => exact ⟨h1, rfl⟩

/-! ### Gcodes -/

theorem coords_perm {g g' : GCode} (h : SameGCode g g') (ax : Finset Axis) : (coords ax g).Perm (coords ax g') :=
  h.2.2.filterMap _

theorem base_nodup (ax : Finset Axis) {g : GCode} (hg : GOK g) :
    ((((coords ax g).map (fun c => (c.1, some c.2)) : Coords)).map Prod.fst).Nodup := by
  rw [List.map_map]
  exact coords_nodup ax g hg

/-- Outcomes of `cannedCoords` that lead to the same moves. -/
def SameCoords : Except Err Coords → Except Err Coords → Prop
  | .ok cs, .ok cs' => cs.Perm cs' ∧ (cs.map Prod.fst).Nodup
  | .error e, .error e' => e = e'
  | _, _ => False

theorem canned_tail {base base' : Coords} (hp : base.Perm base') (hn : (base.map Prod.fst).Nodup)
    (g' pl' : GCode) (ret : Bool) : SameCoords
      (if ret = true then
        match g'.get 'R' with
        | .error e => .error e
        | .ok _ =>
          match pl'.cls.normalAxis.bind Axis.ofLetter with
          | none => .error .type
          | some n =>
            if base.any (fun c => c.1 == n) then
              .ok (base.map (fun c => if c.1 = n then (n, g'.num? 'R') else c))
            else .ok (base ++ [(n, g'.num? 'R')])
      else
        match pl'.cls.normalAxis.bind Axis.ofLetter with
        | none => .ok base
        | some n => .ok (base.filter (fun c => c.1 != n)))
      (if ret = true then
        match g'.get 'R' with
        | .error e => .error e
        | .ok _ =>
          match pl'.cls.normalAxis.bind Axis.ofLetter with
          | none => .error .type
          | some n =>
            if base'.any (fun c => c.1 == n) then
              .ok (base'.map (fun c => if c.1 = n then (n, g'.num? 'R') else c))
            else .ok (base' ++ [(n, g'.num? 'R')])
      else
        match pl'.cls.normalAxis.bind Axis.ofLetter with
        | none => .ok base'
        | some n => .ok (base'.filter (fun c => c.1 != n))) := by
  cases ret
  · simp only [Bool.false_eq_true, if_false]
    cases pl'.cls.normalAxis.bind Axis.ofLetter with
    | none => exact ⟨hp, hn⟩
    | some n => exact ⟨hp.filter _, hn.sublist (List.Sublist.map _ List.filter_sublist)⟩
  · simp only [if_true]
    cases g'.get 'R' with
    | error e => exact rfl
    | ok v =>
      simp only
      cases pl'.cls.normalAxis.bind Axis.ofLetter with
      | none => exact rfl
      | some n =>
        simp only
        rw [perm_any hp]
        by_cases hb : base'.any (fun c => c.1 == n) = true
        · rw [if_pos hb, if_pos hb]
          refine ⟨hp.map _, ?_⟩
          rw [List.map_map]
          have : base.map (Prod.fst ∘ fun c => if c.1 = n then (n, g'.num? 'R') else c) = base.map Prod.fst := by
            apply List.map_congr_left
            intro c _
            by_cases hc : c.1 = n <;> simp [hc]
          rw [this]; exact hn
        · rw [if_neg hb, if_neg hb]
          refine ⟨hp.append_right _, ?_⟩
          rw [List.map_append, List.nodup_append]
          refine ⟨hn, by simp, ?_⟩
          intro x hx y hy hxy
          simp only [List.map_cons, List.map_nil, List.mem_singleton] at hy
          subst hxy
          apply hb
          rw [← perm_any hp, List.any_eq_true]
          obtain ⟨c, hc, rfl⟩ := List.mem_map.1 hx
          exact ⟨c, hc, by simpa using hy⟩

theorem canned_same {a b : Machine} (h : Alike a b) {g g' : GCode} (hs : SameGCode g g') (hg : GOK g) :
    SameCoords (a.cannedCoords g) (b.cannedCoords g') := by
  have hp : ((coords a.axes g).map (fun c => (c.1, some c.2))).Perm
      ((coords b.axes g').map (fun c => (c.1, some c.2))) := by
    rw [h.axes]; exact (coords_perm hs _).map _
  have hn := base_nodup a.axes hg
  unfold cannedCoords
  have h10 : Option.Rel SameGCode a.mode.cannedReturn b.mode.cannedReturn := h.mode 10
  have hpl := h.mode 2
  simp only
  generalize (coords a.axes g).map (fun c => (c.1, some c.2)) = base at hp hn ⊢
  generalize (coords b.axes g').map (fun c => (c.1, some c.2)) = base' at hp ⊢
  change SameCoords (match a.mode 2 with | none => _ | some pl => _) (match b.mode 2 with | none => _ | some pl => _)
  generalize a.mode 2 = x at hpl ⊢
  generalize b.mode 2 = y at hpl ⊢
  cases hpl with
  | none => exact rfl
  | @some pl pl' s =>
    simp only
    rw [s.1, hs.get hg, hs.num hg]
    have tail : ∀ ret : Bool, SameCoords (if ret = true then _ else _) (if ret = true then _ else _) :=
      fun ret => canned_tail hp hn g' pl' ret
    generalize a.mode.cannedReturn = x at h10 ⊢
    generalize b.mode.cannedReturn = y at h10 ⊢
    cases h10 with
    | none => exact tail false
    | some s => simp only [s.1]; exact tail _

theorem loop_same {g g' : GCode} (hs : SameGCode g g') (hg : GOK g) : loopCount g = loopCount g' := by
  unfold loopCount
  rw [hs.get hg, hs.num hg]

theorem withMode_alike {a b : Machine} (h : Alike a b) {g g' : GCode} (hs : SameGCode g g') :
    Alike (a.withMode (setIn a.mode g)) (b.withMode (setIn b.mode g')) := by
  have hm : ∀ k, Option.Rel SameGCode (setIn a.mode g k) (setIn b.mode g' k) := by
    intro k
    unfold setIn
    rw [hs.1]
    cases g'.cls.group with
    | none => exact h.mode k
    | some j =>
      simp only
      by_cases hk : k = j
      · subst hk
        rw [Function.update_self, Function.update_self]
        exact .some hs.copy
      · rw [Function.update_of_ne hk, Function.update_of_ne hk]
        exact h.mode k
  refine ⟨h.axes, h.ignore, ?_, h.abs, h.lo, h.hi, hm⟩
  show State.mk _ _ _ = State.mk _ _ _
  have h12 := hm 12
  rw [h.state]
  congr 1
  show (match setIn a.mode g 12 with | none => _ | some g => _) = (match setIn b.mode g' 12 with | none => _ | some g => _)
  generalize setIn a.mode g 12 = x at h12
  generalize setIn b.mode g' 12 = y at h12
  cases h12 with
  | none => rfl
  | some s => simp only [s.1]

theorem effect_alike {a b : Machine} (h : Alike a b) {g g' : GCode} (hs : SameGCode g g') (hg : GOK g) :
    AlikeRes (a.effect g) (b.effect g') := by
  have hb : ((coords a.axes g).map (fun c => (c.1, some c.2))).Perm
      ((coords b.axes g').map (fun c => (c.1, some c.2))) := by
    rw [h.axes]; exact (coords_perm hs _).map _
  have hmv := move_alike h hb (base_nodup a.axes hg)
  have hc := canned_same h hs hg
  unfold effect
  rw [hs.1]
  cases g'.cls.proc with
  | nothing => exact ⟨h, rfl⟩
  | motion => exact hmv
  | rapid => exact hmv
  | cancel =>
    refine ⟨⟨h.axes, h.ignore, h.state, h.abs, h.lo, h.hi, ?_⟩, rfl⟩
    intro k
    show Option.Rel _ (Function.update a.mode 1 none k) (Function.update b.mode 1 none k)
    by_cases hk : k = 1
    · subst hk; rw [Function.update_self, Function.update_self]; exact .none
    · rw [Function.update_of_ne hk, Function.update_of_ne hk]; exact h.mode k
  | canned =>
    simp only
    rw [loop_same hs hg]
    generalize a.cannedCoords g = x at hc
    generalize b.cannedCoords g' = y at hc
    cases x with
    | error e =>
      cases y with
      | error e' => cases hc; exact ⟨h, rfl⟩
      | ok cs => exact hc.elim
    | ok cs =>
      cases y with
      | error e' => exact hc.elim
      | ok cs' =>
        simp only
        cases loopCount g' with
        | error e => exact ⟨h, rfl⟩
        | ok n => exact moves_alike hc.1 hc.2 n h

theorem process_alike {a b : Machine} (h : Alike a b) {g g' : GCode} (hs : SameGCode g g') (hg : GOK g) :
    AlikeRes (a.process g) (b.process g') := by
  rw [process_eq a g hg, process_eq b g' (hs.gok hg)]
  exact effect_alike (withMode_alike h hs) hs hg

theorem processAll_alike {gs gs' : List GCode} (hs : List.Forall₂ SameGCode gs gs') (hg : ∀ g ∈ gs, GOK g) :
    ∀ {a b : Machine}, Alike a b → AlikeRes (a.processAll gs) (b.processAll gs') := by
  induction hs with
  | nil => exact fun h => ⟨h, rfl⟩
  | @cons g g' gs gs' h1 _ ih =>
    intro a b h
    have hm := process_alike h h1 (hg g List.mem_cons_self)
    unfold processAll andThen
    generalize a.process g = r at hm
    generalize b.process g' = s at hm
    obtain ⟨r, er⟩ := r
    obtain ⟨s, es⟩ := s
    obtain ⟨h1, h2⟩ := hm
    simp only at h1 h2
    subst h2
    cases er with
    | none => exact ih (fun g hg' => hg g (List.mem_cons_of_mem _ hg')) h1
    | some e => exact ⟨h1, rfl⟩

end Pygcode
