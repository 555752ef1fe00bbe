import Verif.Props.Modes
import Verif.Lemmas.Single

/-!
# Blocks with parameters only (C37, C39, C44)
-/

namespace Pygcode
open Props Machine

/-! ## The gcode made from left-over words -/

theorem overrideOne_letters (ps : List Word) (w : Word) (h : (ps.map Word.letter).Nodup) :
    ((overrideOne ps w).map Word.letter).Nodup := by
  unfold overrideOne
  by_cases hc : (ps.map Word.letter).contains w.letter = true
  · rw [if_pos hc]
    have : (ps.map (fun p => if p.letter = w.letter then w else p)).map Word.letter = ps.map Word.letter := by
      rw [List.map_map]
      apply List.map_congr_left
      intro p _
      by_cases hp : p.letter = w.letter <;> simp [hp]
    rw [this]; exact h
  · rw [if_neg hc, List.map_append, List.nodup_append]
    refine ⟨h, by simp, ?_⟩
    intro x hx y hy
    simp only [List.map_cons, List.map_nil, List.mem_singleton] at hy
    subst hy
    rintro rfl
    exact hc (by simpa using hx)

theorem override_letters (mp ps : List Word) (h : (ps.map Word.letter).Nodup) :
    ((override ps mp).map Word.letter).Nodup := by
  unfold override
  induction mp generalizing ps with
  | nil => exact h
  | cons w mp ih => exact ih _ (overrideOne_letters ps w h)

theorem overrideOne_mem (ps : List Word) (w p : Word) (h : p ∈ overrideOne ps w) : p ∈ ps ∨ p = w := by
  unfold overrideOne at h
  split_ifs at h
  · obtain ⟨q, hq, rfl⟩ := List.mem_map.1 h
    by_cases hl : q.letter = w.letter
    · right; rw [if_pos hl]
    · left; rw [if_neg hl]; exact hq
  · simpa using h

theorem override_mem (mp ps : List Word) (p : Word) (h : p ∈ override ps mp) : p ∈ ps ∨ p ∈ mp := by
  unfold override at h
  induction mp generalizing ps with
  | nil => exact .inl h
  | cons w mp ih =>
    rcases ih _ h with h | h
    · rcases overrideOne_mem ps w p h with h | rfl
      · exact .inl h
      · exact .inr (by simp)
    · exact .inr (by simp [h])

theorem overrideOne_find (ps : List Word) (w : Word) (l : Char) :
    (overrideOne ps w).find? (fun p => p.letter == l) =
      if w.letter = l then some w else ps.find? (fun p => p.letter == l) := by
  unfold overrideOne
  by_cases hc : (ps.map Word.letter).contains w.letter = true
  · rw [if_pos hc]
    have hc' : ∃ q ∈ ps, q.letter = w.letter := by simpa using hc
    clear hc
    by_cases hl : w.letter = l
    · rw [if_pos hl]
      subst hl
      induction ps with
      | nil => obtain ⟨q, hq, -⟩ := hc'; cases hq
      | cons p ps ih =>
        by_cases hp : p.letter = w.letter
        · simp [hp]
        · rw [List.map_cons, if_neg hp, List.find?_cons_of_neg (by simpa using hp)]
          apply ih
          obtain ⟨q, hq, hql⟩ := hc'
          rcases List.mem_cons.1 hq with rfl | hq
          · exact absurd hql hp
          · exact ⟨q, hq, hql⟩
    · rw [if_neg hl]
      clear hc'
      induction ps with
      | nil => rfl
      | cons p ps ih =>
        rw [List.map_cons]
        by_cases hp : p.letter = w.letter
        · rw [if_pos hp, List.find?_cons_of_neg (by simpa using hl),
            List.find?_cons_of_neg (by simpa [hp] using hl), ih]
        · rw [if_neg hp, List.find?_cons, List.find?_cons, ih]
  · rw [if_neg hc, List.find?_append]
    by_cases hl : w.letter = l
    · subst hl
      have : ps.find? (fun p => p.letter == w.letter) = none := by
        rw [List.find?_eq_none]
        intro p hp hpl
        exact hc (by simpa using ⟨p, hp, by simpa using hpl⟩)
      rw [this, if_pos rfl]; simp
    · rw [if_neg hl]
      simp [hl]

/-- Overridden parameters, letter by letter: the last given one, otherwise the retained one. -/
theorem override_find (mp ps : List Word) (l : Char) :
    (override ps mp).find? (fun p => p.letter == l) =
      ((mp.filter (fun p => p.letter == l)).getLast?).or (ps.find? (fun p => p.letter == l)) := by
  induction mp using List.reverseRecOn generalizing ps with
  | nil => simp [override]
  | append_singleton mp w ih =>
    have : override ps (mp ++ [w]) = overrideOne (override ps mp) w := by
      unfold override; rw [List.foldl_append]; rfl
    rw [this, overrideOne_find, List.filter_append]
    by_cases hl : w.letter = l
    · rw [if_pos hl]
      have : [w].filter (fun p => p.letter == l) = [w] := by simp [hl]
      rw [this, List.getLast?_append]
      simp
    · rw [if_neg hl]
      have : [w].filter (fun p => p.letter == l) = [] := by simp [hl]
      rw [this, List.append_nil, ih]

theorem override_nil (mp : List Word) (h : (mp.map Word.letter).Nodup) : override [] mp = mp := by
  have key : ∀ ps, ((ps ++ mp).map Word.letter).Nodup → override ps mp = ps ++ mp := by
    clear h
    unfold override
    induction mp with
    | nil => intro ps _; simp
    | cons w mp ih =>
      intro ps h
      have h1 : overrideOne ps w = ps ++ [w] := by
        unfold overrideOne
        rw [if_neg]
        intro hc
        rw [List.map_append, List.nodup_append] at h
        exact h.2.2 _ (by simpa using hc) _ (by simp) rfl
      rw [List.foldl_cons, h1, ih]
      · simp
      · simpa using h
  simpa using key [] (by simpa using h)

/-- The gcode made from the current motion mode and left-over words. -/
def modalOf (g : GCode) (mp : List Word) : GCode :=
  ⟨g.cls, g.word, (override g.params mp).filter (fun p => decide (p.letter ∈ g.cls.params)), false⟩

theorem override_unaccepted (g : GCode) (hg : GOK g) (mp : List Word) :
    (override g.params mp).filter (fun p => decide (p.letter ∉ g.cls.params)) = [] ↔
      ∀ w ∈ mp, w.letter ∈ g.cls.params := by
  rw [List.filter_eq_nil_iff]
  constructor
  · intro h w hw
    by_contra hl
    have hf := override_find mp g.params w.letter
    have hne : (mp.filter (fun p => p.letter == w.letter)) ≠ [] := by
      intro h0
      rw [List.filter_eq_nil_iff] at h0
      exact h0 w hw (by simp)
    rw [List.getLast?_eq_some_getLast hne, Option.some_or] at hf
    have h1 := List.mem_of_find?_eq_some hf
    have h2 := List.find?_some hf
    apply h _ h1
    simp only [beq_iff_eq] at h2
    rw [h2]
    simpa using hl
  · intro h p hp
    rcases override_mem mp g.params p hp with h' | h'
    · simpa using hg.2 p h'
    · simpa using h p h'

/-- `modal_gcode` in closed form. -/
theorem modalGcode_closed (m : Machine) (g : GCode) (hmo : m.mode.motion = some g) (hg : GOK g)
    (hn : Named g) (mp : List Word) (hne : mp ≠ []) (hmp : ∀ w ∈ mp, wordClass w = none) :
    m.modalGcode mp =
      if (∃ w ∈ mp, w.letter ∉ g.cls.params) ∧ m.ignoreInvalid = false then .error .invalidState
      else .ok (some (modalOf g mp)) := by
  unfold modalGcode
  rw [if_neg hne, hmo]
  simp only
  have hw := words2gcodes_single g.word g.cls hn (override g.params mp) (by
    intro p hp
    rcases override_mem mp g.params p hp with h | h
    · exact .inr (hg.2 p h)
    · exact .inl (hmp p h))
  have hnd : (((override g.params mp).filter (fun p => decide (p.letter ∈ g.cls.params))).map Word.letter).Nodup :=
    (override_letters mp g.params hg.1).sublist (List.Sublist.map _ List.filter_sublist)
  rw [if_pos hnd] at hw
  rw [hw]
  simp only
  have hiff : (override g.params mp).filter (fun p => decide (p.letter ∉ g.cls.params)) ≠ [] ↔
      ∃ w ∈ mp, w.letter ∉ g.cls.params := by
    rw [Ne, override_unaccepted g hg mp]
    push Not
    rfl
  by_cases hc : (∃ w ∈ mp, w.letter ∉ g.cls.params) ∧ m.ignoreInvalid = false
  · rw [if_pos hc, if_pos ⟨hiff.2 hc.1, hc.2⟩]
  · rw [if_neg hc, if_neg (fun h => hc ⟨hiff.1 h.1, h.2⟩)]
    rfl

theorem modalOf_gok (g : GCode) (hg : GOK g) (mp : List Word) : GOK (modalOf g mp) := by
  constructor
  · exact (override_letters mp g.params hg.1).sublist (List.Sublist.map _ List.filter_sublist)
  · intro p hp
    exact of_decide_eq_true (List.mem_filter.1 hp).2

theorem modalOf_param (g : GCode) (mp : List Word) (l : Char) (hl : l ∈ g.cls.params) :
    (modalOf g mp).param l =
      ((mp.filter (fun p => p.letter == l)).getLast?).or (g.param l) := by
  unfold GCode.param
  rw [← override_find]
  show ((override g.params mp).filter (fun p => decide (p.letter ∈ g.cls.params))).find? _ = _
  rw [List.find?_filter]
  congr 1
  funext p
  by_cases hp : p.letter = l
  · simp [hp, hl]
  · simp [hp]

/-! ## C37 -/

/-- C37: with a motion mode active and accepted parameters (or a machine ignoring the others), a block
with left-over words has exactly the effect of the same gcodes and the explicit gcode `e`: the same
word, each parameter being the one given (the last, if given twice) or else the retained one. -/
theorem C37_modal (m : Machine) (g : GCode) (hmo : m.mode.motion = some g) (hg : GOK g) (hn : Named g)
    (mp : List Word) (hne : mp ≠ []) (hmp : ∀ w ∈ mp, wordClass w = none)
    (hacc : m.ignoreInvalid = true ∨ ∀ w ∈ mp, w.letter ∈ g.cls.params) :
    ∃ e : GCode, e.cls = g.cls ∧ e.word = g.word ∧ GOK e ∧
      (∀ l ∈ g.cls.params,
        (∀ w, e.param l = some w ↔
          ((∃ pre post, mp = pre ++ w :: post ∧ w.letter = l ∧ ∀ x ∈ post, x.letter ≠ l) ∨
           ((∀ x ∈ mp, x.letter ≠ l) ∧ g.param l = some w)))) ∧
      (∀ gs, m.processGcodes gs mp = m.processGcodes (gs ++ [e]) []) ∧
      m.processGcodes [] mp = m.process e := by
  have hcl := modalGcode_closed m g hmo hg hn mp hne hmp
  rw [if_neg (by
    rintro ⟨⟨w, hw, hl⟩, hi⟩
    rcases hacc with h | h
    · rw [h] at hi; cases hi
    · exact hl (h w hw))] at hcl
  refine ⟨modalOf g mp, rfl, rfl, modalOf_gok g hg mp, ?_, ?_, ?_⟩
  · intro l hl w
    rw [modalOf_param g mp l hl]
    by_cases hx : ∀ x ∈ mp, x.letter ≠ l
    · have : mp.filter (fun p => p.letter == l) = [] := by
        rw [List.filter_eq_nil_iff]; intro x h; simpa using hx x h
      rw [this]
      simp only [List.getLast?_nil, Option.none_or]
      constructor
      · intro h; exact .inr ⟨hx, h⟩
      · rintro (⟨pre, post, rfl, hwl, -⟩ | ⟨-, h⟩)
        · exact absurd hwl (hx w (by simp))
        · exact h
    · have hne' : mp.filter (fun p => p.letter == l) ≠ [] := by
        intro h0
        rw [List.filter_eq_nil_iff] at h0
        exact hx (fun x h => by simpa using h0 x h)
      constructor
      · intro h
        left
        rw [List.getLast?_eq_some_getLast hne', Option.some_or, Option.some.injEq] at h
        clear hcl hacc hmp hne
        induction mp using List.reverseRecOn with
        | nil => exact absurd rfl hne'
        | append_singleton mp x ih =>
          by_cases hxl : x.letter = l
          · have hfl : (mp ++ [x]).filter (fun p => p.letter == l) = mp.filter (fun p => p.letter == l) ++ [x] := by
              rw [List.filter_append]; simp [hxl]
            simp only [hfl, List.getLast_append_singleton] at h
            subst h
            exact ⟨mp, [], rfl, hxl, by simp⟩
          · have hfl : (mp ++ [x]).filter (fun p => p.letter == l) = mp.filter (fun p => p.letter == l) := by
              rw [List.filter_append]; simp [hxl]
            simp only [hfl] at h hne'
            obtain ⟨pre, post, rfl, h1, h2⟩ := ih (by
              intro h0; apply hne'
              rw [List.filter_eq_nil_iff]
              intro y hy; simpa using h0 y hy) hne' h
            refine ⟨pre, post ++ [x], by simp, h1, ?_⟩
            intro y hy
            rcases List.mem_append.1 hy with hy | hy
            · exact h2 y hy
            · simp at hy; subst hy; exact hxl
      · rintro (⟨pre, post, rfl, hwl, hpost⟩ | ⟨h, -⟩)
        · have hfl : (pre ++ w :: post).filter (fun p => p.letter == l) = pre.filter (fun p => p.letter == l) ++ [w] := by
            rw [List.filter_append, List.filter_cons]
            have : post.filter (fun p => p.letter == l) = [] := by
              rw [List.filter_eq_nil_iff]; intro x h; simpa using hpost x h
            simp [hwl, this]
          rw [hfl, List.getLast?_append]
          simp
        · exact absurd h hx
  · intro gs
    unfold processGcodes
    rw [hcl]
    have : m.modalGcode [] = .ok none := rfl
    rw [this]
    simp
  · unfold processGcodes
    rw [hcl]
    show m.processAll [modalOf g mp] = _
    unfold processAll andThen
    rcases m.process (modalOf g mp) with ⟨m', _ | e⟩ <;> rfl

/-- C37 for plain motion (no retained parameters): the left-over words after the word of the motion
mode are what the explicit line reads as, and processing either is the same. -/
theorem C37_explicit (m : Machine) (g : GCode) (hmo : m.mode.motion = some g) (hg : GOK g) (hn : Named g)
    (hp : g.params = []) (mp : List Word) (hne : mp ≠ []) (hmp : ∀ w ∈ mp, wordClass w = none)
    (hacc : ∀ w ∈ mp, w.letter ∈ g.cls.params) (hnd : (mp.map Word.letter).Nodup) :
    ∃ e, words2gcodes (g.word :: mp) = .ok ([e], []) ∧ e.params = mp ∧ e.cls = g.cls ∧
      m.processGcodes [] mp = m.processGcodes [e] [] := by
  have hfl : mp.filter (fun p => decide (p.letter ∈ g.cls.params)) = mp := by
    rw [List.filter_eq_self]; intro p h; simpa using hacc p h
  have hfl' : mp.filter (fun p => decide (p.letter ∉ g.cls.params)) = [] := by
    rw [List.filter_eq_nil_iff]; intro p h; simpa using hacc p h
  have hw := words2gcodes_single g.word g.cls hn mp (fun p h => .inl (hmp p h))
  rw [hfl, if_pos hnd, hfl'] at hw
  refine ⟨_, hw, rfl, rfl, ?_⟩
  have hcl := modalGcode_closed m g hmo hg hn mp hne hmp
  rw [if_neg (by rintro ⟨⟨w, h, hl⟩, -⟩; exact hl (hacc w h))] at hcl
  have hof : modalOf g mp = ⟨g.cls, g.word, mp, false⟩ := by
    unfold modalOf
    rw [hp, override_nil mp hnd, hfl]
  unfold processGcodes
  rw [hcl, hof]
  rfl

/-- Without retained parameters in any reachable mode: plain motion gcodes retain none. -/
theorem C37_plain (md : Mode) (h : ModeOK md) (g : GCode) (hmo : md.motion = some g)
    (hm : g.cls.modalParams = []) : g.params = [] := by
  have := (h 1 g hmo).2.2
  rw [hm] at this
  exact List.eq_nil_iff_forall_not_mem.2 (fun w hw => by simpa using this w hw)

/-- The modal line `Y4` after `G1 X3` is `G1 Y4`; after `G81 X1 Z-2 R3` the line `Y5` is
`G81 X1 Y5 Z-2 R3`. -/
example : (((sampleMachine.processStr "G1 X3".toList).1.processStr "Y4".toList).1.absPos.val .Y,
    ((sampleMachine.processStr "G1 X3".toList).1.processStr "G1 Y4".toList).1.absPos.val .Y) = (4, 4) := by
  decide +kernel
example : ((sampleMachine.processStr "G81 X1 Z-2 R3".toList).1.modalGcode [⟨'Y', .num 5⟩]) =
    .ok (some ⟨.drillingCycle, ⟨'G', .num 81⟩, [⟨'X', .num 1⟩, ⟨'Z', .num (-2)⟩, ⟨'R', .num 3⟩, ⟨'Y', .num 5⟩], false⟩) := by
  decide +kernel
/-- Repeated letters: the modal line takes the last one, the explicit line is refused. -/
example : ((sampleMachine.processStr "X1 X2".toList).1.pos.map (fun p => p.val .X),
    (sampleMachine.processStr "X1 X2".toList).2, (sampleMachine.processStr "G0 X1 X2".toList).2) =
    (.ok 2, none, some .param) := by decide +kernel

/-! ## C39 -/

/-- C39: a block whose left-over words cannot be used is refused with `MachineInvalidState` and the
machine is left exactly as it was; this is the only way in which left-over words are refused. -/
theorem C39_refused (m : Machine) (hi : m.ignoreInvalid = false)
    (hg : ∀ g, m.mode.motion = some g → GOK g ∧ Named g) (gs : List GCode) (mp : List Word)
    (hmp : ∀ w ∈ mp, wordClass w = none) :
    ((mp ≠ [] ∧ (m.mode.motion = none ∨ ∃ g, m.mode.motion = some g ∧ ∃ w ∈ mp, w.letter ∉ g.cls.params)) →
      m.processGcodes gs mp = (m, some .invalidState)) ∧
    (¬ (mp ≠ [] ∧ (m.mode.motion = none ∨ ∃ g, m.mode.motion = some g ∧ ∃ w ∈ mp, w.letter ∉ g.cls.params)) →
      ∃ og : Option GCode, m.processGcodes gs mp = m.processAll (execSort (gs ++ og.toList)) ∧
        (mp = [] → og = none) ∧ (mp ≠ [] → ∃ g e, m.mode.motion = some g ∧ og = some e ∧ e.word = g.word ∧
          e.cls = g.cls)) := by
  constructor
  · rintro ⟨hne, h⟩
    unfold processGcodes
    rcases h with h | ⟨g, h, hw⟩
    · have : m.modalGcode mp = .error .invalidState := by
        unfold modalGcode
        rw [if_neg hne, h]
        simp [hi]
      rw [this]
    · rw [modalGcode_closed m g h (hg g h).1 (hg g h).2 mp hne hmp, if_pos ⟨hw, hi⟩]
  · intro h
    by_cases hne : mp = []
    · subst hne
      exact ⟨none, rfl, fun _ => rfl, fun h => absurd rfl h⟩
    · cases hmo : m.mode.motion with
      | none => exact absurd ⟨hne, .inl hmo⟩ h
      | some g =>
        have hcl := modalGcode_closed m g hmo (hg g hmo).1 (hg g hmo).2 mp hne hmp
        rw [if_neg (fun hc => h ⟨hne, .inr ⟨g, hmo, hc.1⟩⟩)] at hcl
        refine ⟨some (modalOf g mp), ?_, fun h => absurd h hne, fun _ => ⟨g, _, rfl, rfl, rfl, rfl⟩⟩
        unfold processGcodes
        rw [hcl]

/-- Conditions under which a move is refused. -/
def MoveFails (m : Machine) (cs : Coords) : Prop :=
  m.BadSys ∨ (m.incremental = true ∧ ∃ c ∈ cs, c.1 ∈ m.axes ∧ c.2 = none) ∨
    (m.incremental = false ∧ ∃ c ∈ cs, c.1 ∉ m.axes ∨ c.2 = none)

theorem update_known (cs : List (Axis × ℚ)) (p : Position) (h : ∀ c ∈ cs, c.1 ∈ p.axes) :
    (p.update cs).2 = none := by
  induction cs generalizing p with
  | nil => rfl
  | cons c cs ih =>
    unfold Position.update Position.set
    have hc := h c List.mem_cons_self
    simp only [hc, if_true]
    exact ih _ (fun d hd => h d (List.mem_cons_of_mem _ hd))

theorem move_fails_iff (m : Machine) (hm : m.WF) (cs : Coords) :
    (∃ e, m.move cs = (m, some e)) ↔ MoveFails m cs := by
  unfold MoveFails
  by_cases hb : m.BadSys
  · exact ⟨fun _ => .inl hb, fun _ => ⟨.index, motion_bad m hb cs⟩⟩
  · unfold move
    rw [pos_ok m hm hb]
    by_cases hi : m.incremental = true
    · simp only [hi, if_true]
      by_cases h1 : (cs.filter (fun c => decide (c.1 ∈ m.axes))).any (fun c => c.2.isNone) = true
      · rw [if_pos h1]
        refine ⟨fun _ => .inr (.inl ⟨trivial, ?_⟩), fun _ => ⟨_, rfl⟩⟩
        obtain ⟨c, hc, hcn⟩ := List.any_eq_true.1 h1
        rw [List.mem_filter] at hc
        exact ⟨c, hc.1, by simpa using hc.2, by simpa using hcn⟩
      · rw [if_neg h1]
        simp only [Position.add, Position.make, if_true]
        rw [setPos_mk m hm hb]
        constructor
        · rintro ⟨e, he⟩; cases congrArg Prod.snd he
        · rintro (h | ⟨-, c, hc, hca, hcn⟩ | ⟨h, -⟩)
          · exact absurd h hb
          · exact absurd (List.any_eq_true.2 ⟨c, List.mem_filter.2 ⟨hc, by simpa using hca⟩, by simp [hcn]⟩) h1
          · cases h
    · simp only [hi, Bool.false_eq_true, if_false]
      by_cases h1 : cs.any (fun c => decide (c.1 ∉ m.axes)) = true
      · rw [if_pos h1]
        refine ⟨fun _ => .inr (.inr ⟨trivial, ?_⟩), fun _ => ⟨_, rfl⟩⟩
        obtain ⟨c, hc, hcn⟩ := List.any_eq_true.1 h1
        exact ⟨c, hc, .inl (by simpa using hcn)⟩
      · rw [if_neg h1]
        by_cases h2 : cs.any (fun c => c.2.isNone) = true
        · rw [if_pos h2]
          refine ⟨fun _ => .inr (.inr ⟨trivial, ?_⟩), fun _ => ⟨_, rfl⟩⟩
          obtain ⟨c, hc, hcn⟩ := List.any_eq_true.1 h2
          exact ⟨c, hc, .inr (by simpa using hcn)⟩
        · rw [if_neg h2]
          set p : Position := ⟨m.axes, m.absPos.unit, fun a => m.absPos.val a - m.sysOff a - m.state.offset.val a⟩ with hp
          have hax : ∀ c ∈ cs, c.1 ∈ m.axes := by
            intro c hc
            by_contra hn
            exact h1 (List.any_eq_true.2 ⟨c, hc, by simpa using hn⟩)
          have hk := update_known (cs.filterMap (fun c => c.2.map (fun v => (c.1, v)))) p (by
            intro c hc
            obtain ⟨d, hd, hdc⟩ := List.mem_filterMap.1 hc
            cases hv : d.2 with
            | none => rw [hv] at hdc; cases hdc
            | some v => rw [hv] at hdc; cases hdc; exact hax d hd)
          obtain ⟨k1, k2, k3⟩ := update_keeps p (cs.filterMap (fun c => c.2.map (fun v => (c.1, v))))
          generalize p.update (cs.filterMap (fun c => c.2.map (fun v => (c.1, v)))) = r at *
          obtain ⟨q, e⟩ := r
          simp only at hk k1 k2
          subst hk
          simp only
          rw [setPos_ok m hm hb q k1 k2]
          constructor
          · rintro ⟨e, he⟩; cases congrArg Prod.snd he
          · rintro (h | ⟨h, -⟩ | ⟨-, c, hc, hcn | hcn⟩)
            · exact absurd h hb
            · exact h.elim
            · exact absurd (hax c hc) hcn
            · exact absurd (List.any_eq_true.2 ⟨c, hc, by simp [hcn]⟩) h2

/-- Repeated moves fail, if at all, at the first one. -/
theorem moves_fail (cs : Coords) (n : ℕ) (m : Machine) (hm : m.WF) (e : Err) (m' : Machine)
    (h : m.moves cs n = (m', some e)) : m' = m := by
  have never : ∀ n (m : Machine), m.WF → ¬ MoveFails m cs → (m.moves cs n).2 = none := by
    intro n
    induction n with
    | zero => intros; rfl
    | succ n ih =>
      intro m hm hf
      unfold moves andThen
      rcases move_cases m hm cs with ⟨v, hv, -, h⟩ | he
      · rw [h]; exact ih _ (goto_wf m hm v hv) hf
      · exact absurd ((move_fails_iff m hm cs).1 he) hf
  cases n with
  | zero => cases h
  | succ n =>
    unfold moves andThen at h
    rcases move_cases m hm cs with ⟨v, hv, -, hmv⟩ | ⟨e', he⟩
    · have hf : ¬ MoveFails m cs := by
        intro hf
        obtain ⟨e', he'⟩ := (move_fails_iff m hm cs).2 hf
        rw [hmv] at he'; cases congrArg Prod.snd he'
      rw [hmv] at h
      have := never n (m.goto v) (goto_wf m hm v hv) hf
      simp only at h
      rw [h] at this
      cases this
    · rw [he] at h
      simp only [Prod.mk.injEq] at h
      exact h.1.symm

theorem effect_fail (m : Machine) (hm : m.WF) (g : GCode) (e : Err) (m' : Machine)
    (h : m.effect g = (m', some e)) : m' = m := by
  unfold effect at h
  cases hp : g.cls.proc with
  | nothing => rw [hp] at h; cases h
  | motion => rw [hp] at h; simp only at h; rw [← moves_one] at h; exact moves_fail _ 1 m hm e m' h
  | rapid => rw [hp] at h; simp only at h; rw [← moves_one] at h; exact moves_fail _ 1 m hm e m' h
  | cancel => rw [hp] at h; cases h
  | canned =>
    rw [hp] at h; simp only at h
    cases hc : m.cannedCoords g with
    | error e' => rw [hc] at h; simp only [Prod.mk.injEq] at h; exact h.1.symm
    | ok cs =>
      rw [hc] at h; simp only at h
      cases hl : loopCount g with
      | error e' => rw [hl] at h; simp only [Prod.mk.injEq] at h; exact h.1.symm
      | ok n => rw [hl] at h; exact moves_fail cs n m hm e m' h

/-- C39: if a gcode fails, the gcodes before it in execution order have taken effect, those after it
have not, and the failing one has only selected its mode: it has moved nothing. -/
theorem C39_prefix (m : Machine) (hm : m.WF) (gs : List GCode) (hg : ∀ g ∈ gs, GOK g) (m' : Machine) (e : Err)
    (h : m.processAll gs = (m', some e)) :
    ∃ pre g post m₁, gs = pre ++ g :: post ∧ m.processAll pre = (m₁, none) ∧
      m₁.process g = (m', some e) ∧ m'.absPos = m₁.absPos ∧ m'.rangeMin = m₁.rangeMin ∧
      m'.rangeMax = m₁.rangeMax ∧ m'.mode = setIn m₁.mode g := by
  induction gs generalizing m with
  | nil => cases h
  | cons g gs ih =>
    have hg0 := hg g List.mem_cons_self
    have hwf := (path_process m hm g hg0).wf hm
    unfold processAll andThen at h
    rcases hp : m.process g with ⟨n, _ | e'⟩
    · rw [hp] at h hwf
      obtain ⟨pre, x, post, m₁, h1, h2, h3⟩ := ih n hwf (fun x hx => hg x (List.mem_cons_of_mem _ hx)) h
      refine ⟨g :: pre, x, post, m₁, by rw [h1]; rfl, ?_, h3⟩
      unfold processAll andThen
      rw [hp]
      exact h2
    · rw [hp] at h
      simp only [Prod.mk.injEq, Option.some.injEq] at h
      obtain ⟨rfl, rfl⟩ := h
      have he := hp
      rw [process_eq m g hg0] at he
      have := effect_fail _ (withMode_wf m hm _) g _ _ he
      refine ⟨[], g, gs, m, rfl, rfl, hp, ?_⟩
      rw [this]
      exact ⟨rfl, rfl, rfl, rfl⟩

/-- A block that is refused, and one that fails in the middle (a G99 cycle without R, after which the
spindle mode is set but nothing has moved). -/
example : let r := sampleMachine.processStr "G91 M3 R5".toList
    (r.2, r.1.mode.distance.map (fun g => g.cls), r.1.mode 107) =
    (some .invalidState, some .absoluteDistanceMode, none) := by decide +kernel
example : let r := sampleMachine.processStr "G99 M3 G81 X5".toList
    (r.2, (r.1.mode 107).map (fun g => g.cls), r.1.absPos.val .X) =
    (some .type, some .startSpindleCW, 0) := by decide +kernel

/-! ## C44 -/

theorem foldl_erase_cons (a : Word) (un l : List Word) (h : a ∉ un) :
    un.foldl List.erase (a :: l) = a :: un.foldl List.erase l := by
  induction un generalizing l with
  | nil => rfl
  | cons u un ih =>
    have hne : a ≠ u := fun hau => h (by simp [hau])
    rw [List.foldl_cons, List.foldl_cons, List.erase_cons_tail (by simpa using hne)]
    exact ih _ (fun hm => h (List.mem_cons_of_mem _ hm))

theorem foldl_erase_filter (p : Word → Bool) (l : List Word) :
    (l.filter (fun w => !p w)).foldl List.erase l = l.filter p := by
  induction l with
  | nil => rfl
  | cons a l ih =>
    cases hp : p a
    · rw [List.filter_cons_of_pos (by simp [hp]), List.filter_cons_of_neg (by simp [hp])]
      rw [List.foldl_cons, List.erase_cons_head]
      exact ih
    · rw [List.filter_cons_of_neg (by simp [hp]), List.filter_cons_of_pos (by simp [hp])]
      rw [foldl_erase_cons _ _ _ (by
        intro h
        have := (List.mem_filter.1 h).2
        rw [hp] at this; cases this), ih]

/-- C44: what `clean_block` leaves. -/
theorem C44_clean (m : Machine) (hg : ∀ g, m.mode.motion = some g → Named g) (b : Block)
    (hmp : ∀ w ∈ b.modalParams, wordClass w = none) :
    ((m.mode.motion = none ∨ ∃ x ∈ b.gcodes, x.cls.group = some 1) →
      m.cleanBlock b = .ok { b with modalParams := [] }) ∧
    (∀ g, m.mode.motion = some g → (∀ x ∈ b.gcodes, x.cls.group ≠ some 1) →
      (((b.modalParams.filter (fun w => decide (w.letter ∈ g.cls.params))).map Word.letter).Nodup →
        m.cleanBlock b = .ok { b with
          modalParams := b.modalParams.filter (fun w => decide (w.letter ∈ g.cls.params)) }) ∧
      (¬ ((b.modalParams.filter (fun w => decide (w.letter ∈ g.cls.params))).map Word.letter).Nodup →
        m.cleanBlock b = .error .param)) := by
  have hany : b.gcodes.any (fun x => x.cls.group == some 1) = true ↔ ∃ x ∈ b.gcodes, x.cls.group = some 1 := by
    rw [List.any_eq_true]; simp
  constructor
  · intro h
    unfold cleanBlock
    cases hmo : m.mode.motion with
    | none => rfl
    | some g =>
      rw [hmo] at h
      simp only
      rw [if_pos (hany.2 (h.resolve_left (by simp)))]
  · intro g hmo hown
    have hw := words2gcodes_single g.word g.cls (hg g hmo) b.modalParams (fun p h => .inl (hmp p h))
    have hno : ¬ b.gcodes.any (fun x => x.cls.group == some 1) = true := by
      rw [hany]; push Not; exact hown
    have hflt : b.modalParams.filter (fun p => decide (p.letter ∉ g.cls.params)) =
        b.modalParams.filter (fun w => !decide (w.letter ∈ g.cls.params)) := by
      congr 1; funext w; simp
    constructor
    · intro hnd
      rw [if_pos hnd] at hw
      unfold cleanBlock
      rw [hmo]
      simp only
      rw [if_neg hno, hw]
      simp only
      rw [hflt, foldl_erase_filter]
    · intro hnd
      rw [if_neg hnd] at hw
      unfold cleanBlock
      rw [hmo]
      simp only
      rw [if_neg hno, hw]

/-- C44: cleaning twice is cleaning once, and a cleaned block is not refused for its left-over words. -/
theorem C44_idempotent (m : Machine) (hg : ∀ g, m.mode.motion = some g → GOK g ∧ Named g) (b b' : Block)
    (hmp : ∀ w ∈ b.modalParams, wordClass w = none) (h : m.cleanBlock b = .ok b') :
    m.cleanBlock b' = .ok b' ∧ b'.gcodes = b.gcodes ∧ b'.words = b.words ∧
      b'.modalParams.Sublist b.modalParams ∧ ∃ og, m.modalGcode b'.modalParams = .ok og := by
  have hn : ∀ g, m.mode.motion = some g → Named g := fun g h => (hg g h).2
  obtain ⟨h1, h2⟩ := C44_clean m hn b hmp
  by_cases hc : m.mode.motion = none ∨ ∃ x ∈ b.gcodes, x.cls.group = some 1
  · rw [h1 hc] at h
    cases h
    refine ⟨?_, rfl, rfl, by simp, none, rfl⟩
    exact (C44_clean m hn { b with modalParams := [] } (by simp)).1 hc
  · push Not at hc
    obtain ⟨g, hmo⟩ := Option.ne_none_iff_exists'.1 hc.1
    obtain ⟨h3, h4⟩ := h2 g hmo hc.2
    by_cases hnd : ((b.modalParams.filter (fun w => decide (w.letter ∈ g.cls.params))).map Word.letter).Nodup
    · rw [h3 hnd] at h
      cases h
      have hsub : ∀ w ∈ b.modalParams.filter (fun w => decide (w.letter ∈ g.cls.params)), wordClass w = none :=
        fun w hw => hmp w (List.mem_of_mem_filter hw)
      have hff : (b.modalParams.filter (fun w => decide (w.letter ∈ g.cls.params))).filter
          (fun w => decide (w.letter ∈ g.cls.params)) =
          b.modalParams.filter (fun w => decide (w.letter ∈ g.cls.params)) := by
        rw [List.filter_filter]; simp
      refine ⟨?_, rfl, rfl, List.filter_sublist, ?_⟩
      · have := ((C44_clean m hn { b with
            modalParams := b.modalParams.filter (fun w => decide (w.letter ∈ g.cls.params)) } hsub).2 g hmo hc.2).1
        simp only [hff] at this
        exact this hnd
      · by_cases hne : b.modalParams.filter (fun w => decide (w.letter ∈ g.cls.params)) = []
        · exact ⟨none, by simp only [hne]; rfl⟩
        · have hcl := modalGcode_closed m g hmo (hg g hmo).1 (hg g hmo).2 _ hne hsub
          rw [if_neg] at hcl
          · exact ⟨_, hcl⟩
          · rintro ⟨⟨w, hw, hl⟩, -⟩
            exact hl (of_decide_eq_true (List.mem_filter.1 hw).2)
    · rw [h4 hnd] at h; cases h

/-- `X1 Q2 Y3 Q2` under G0: the Q words go. -/
example : (sampleMachine.cleanBlock ⟨[], [⟨.absoluteDistanceMode, ⟨'G', .num 90⟩, [], false⟩],
      [⟨'X', .num 1⟩, ⟨'Q', .num 2⟩, ⟨'Y', .num 3⟩, ⟨'Q', .num 2⟩]⟩).map Block.modalParams =
    .ok [⟨'X', .num 1⟩, ⟨'Y', .num 3⟩] := by decide +kernel
example : (sampleMachine.cleanBlock ⟨[], [], [⟨'X', .num 1⟩, ⟨'X', .num 2⟩]⟩).map Block.modalParams =
    .error .param := by decide +kernel

end Pygcode
