import Verif.Props.Modal

/-!
# Copied machines (C41)

`copy(machine)` is used by pygcode-crop (scripts/pygcode-crop:201).  A user expects the copy to be
equivalent to the original.  The copied state lists the keys of the coordinate systems instead of
the systems.
-/

namespace Pygcode
open Props Machine

/-- C41, what holds: mode, absolute position, range and temporary offset are copied, and the work
position is the same exactly if the current coordinate system has no offset. -/
theorem C41_copy_partial (m : Machine) (hm : m.WF) (hb : ¬ m.BadSys) :
    m.copy.mode = m.mode ∧ m.copy.absPos = m.absPos ∧ m.copy.rangeMin = m.rangeMin ∧
    m.copy.rangeMax = m.rangeMax ∧ m.copy.axes = m.axes ∧ m.copy.state.offset = m.state.offset ∧
    ∃ p q, m.pos = .ok p ∧ m.copy.pos = .ok q ∧
      (∀ a ∈ m.axes, q.val a = m.absPos.val a - m.state.offset.val a) ∧
      (p = q ↔ ∀ a ∈ m.axes, m.sysOff a = 0) := by
  have hwf : m.copy.WF := ⟨hm.abs, hm.absWF, fun f hf => (by cases hf), hm.off, hm.offWF, hm.lo, hm.hi⟩
  have hb' : ¬ m.copy.BadSys := fun h => by
    have := h.2
    simp [Machine.copy, State.copy] at this
  refine ⟨rfl, rfl, rfl, rfl, rfl, rfl, _, _, pos_ok m hm hb, pos_ok _ hwf hb', ?_, ?_⟩
  · intro a ha
    show m.absPos.val a - m.copy.sysOff a - m.state.offset.val a = _
    show m.absPos.val a - 0 - m.state.offset.val a = _
    ring
  · constructor
    · intro h a ha
      have h1 := congrFun (congrArg Position.val h) a
      have h2 : m.absPos.val a - m.sysOff a - m.state.offset.val a =
        m.absPos.val a - 0 - m.state.offset.val a := h1
      linarith
    · intro h
      have : m.sysOff = m.copy.sysOff := by
        funext a
        show m.sysOff a = 0
        by_cases ha : a ∈ m.axes
        · exact h a ha
        · exact sysOff_outside m hm a ha
      rw [this]
      rfl

/-- C41 is violated: a machine with a work offset and its copy report different work positions. -/
theorem C41_refuted : ¬ ∀ m : Machine, m.WF → ∀ p q, m.pos = .ok p → m.copy.pos = .ok q →
    ∀ a ∈ m.axes, p.val a = q.val a := by
  intro h
  let off : Position := ⟨xyz, .mm, fun a => if a = .X then 5 else 0⟩
  let m : Machine := { newNull with state := ⟨.dict (fun _ => off), 1, Position.zero xyz⟩ }
  have hoff : off.WF := by
    intro a ha
    cases a <;> first | rfl | exact absurd (by decide : Axis.X ∈ xyz) ha
  have hz : ∀ (ax : Finset Axis) (u : LUnit), (⟨ax, u, fun _ => 0⟩ : Position).WF := fun _ _ _ _ => rfl
  have hm : m.WF := ⟨rfl, hz _ _, fun f hf k => by cases hf; exact ⟨rfl, hoff⟩, rfl, hz _ _,
    Finset.Subset.refl _, Finset.Subset.refl _⟩
  have := h m hm _ _ rfl rfl .X (by decide)
  revert this
  decide +kernel

/-- C41: once G59.3 is selected on a copy, its work position cannot be read and no move succeeds. -/
theorem C41_system9_refuted (m : Machine) (g : GCode) (hg : GOK g) (h9 : g.cls = .selectCoordinateSystem9)
    (cs : Coords) :
    (m.copy.process g).2 = none ∧ (m.copy.process g).1.pos = .error .index ∧
      (m.copy.process g).1.move cs = ((m.copy.process g).1, some .index) := by
  have hgr : g.cls.group = some 12 := by rw [h9]; decide +kernel
  have hp : m.copy.process g = (m.copy.withMode (setIn m.mode g), none) := by
    rw [process_eq _ g hg]
    unfold effect
    have : g.cls.proc = .nothing := by rw [h9]; decide +kernel
    rw [this]
    rfl
  have hbad : (m.copy.withMode (setIn m.mode g)).BadSys := by
    have h12 : Mode.coordSystem (setIn m.mode g) = some (copyOf g) := by
      unfold Mode.coordSystem setIn
      rw [hgr]
      exact Function.update_self _ _ _
    unfold BadSys withMode
    rw [h12]
    refine ⟨rfl, ?_⟩
    show (copyOf g).cls.coordSys.getD 0 = 9
    have : (copyOf g).cls = g.cls := rfl
    rw [this, h9]
    decide +kernel
  rw [hp]
  exact ⟨rfl, pos_bad _ hbad, motion_bad _ hbad cs⟩

/-! ## Equivalence when no coordinate system has an offset -/

/-- The machine with a copied state whose current system is `k`. -/
def asCopy (k : ℕ) (m : Machine) : Machine := { m with state := ⟨.keyList, k, m.state.offset⟩ }

/-- No coordinate system has an offset (no gcode ever sets one, C42). -/
def NoOffsets (m : Machine) : Prop :=
  ∃ f, m.state.systems = .dict f ∧ ∀ k, (f k).axes = m.axes ∧ ∀ a, (f k).val a = 0

theorem noOffsets_of_frame {m m' : Machine} (h : Frame m m') (hn : NoOffsets m) : NoOffsets m' := by
  obtain ⟨f, hf, h0⟩ := hn
  obtain ⟨h1, h2, h3, h4, h5⟩ := h
  refine ⟨f, ?_, ?_⟩
  · simp_all
  · simp_all

theorem offset_copy (m : Machine) (k : ℕ) (hk : k ≠ 9) (h : NoOffsets m) :
    ∃ o, m.coordOffset = .ok o ∧ o.axes = m.axes ∧ (∀ a, o.val a = 0) ∧
      (asCopy k m).coordOffset = .ok (Position.zero m.axes) := by
  obtain ⟨f, hf, h0⟩ := h
  have hc : (asCopy k m).coordOffset = .ok (Position.zero m.axes) := by
    show (if k = 9 then Except.error Err.index else .ok (Position.zero m.axes)) = _
    rw [if_neg hk]
  have ho : m.coordOffset = if 1 ≤ m.state.cur ∧ m.state.cur ≤ 9 then .ok (f m.state.cur)
      else .ok (Position.zero m.axes) := by
    unfold coordOffset; rw [hf]
  by_cases hr : 1 ≤ m.state.cur ∧ m.state.cur ≤ 9
  · rw [if_pos hr] at ho
    exact ⟨_, ho, (h0 _).1, (h0 _).2, hc⟩
  · rw [if_neg hr] at ho
    exact ⟨_, ho, rfl, fun _ => rfl, hc⟩

theorem abs2work_copy (m : Machine) (k : ℕ) (hk : k ≠ 9) (h : NoOffsets m) (p : Position) :
    (asCopy k m).abs2work p = m.abs2work p := by
  obtain ⟨o, h1, h2, h3, h4⟩ := offset_copy m k hk h
  unfold abs2work
  rw [h1, h4]
  simp only
  have : p.sub (Position.zero m.axes) = p.sub o := by
    unfold Position.sub Position.zero
    simp only [h2, h3]
  rw [this]
  rfl

theorem work2abs_copy (m : Machine) (k : ℕ) (hk : k ≠ 9) (h : NoOffsets m) (p : Position) :
    (asCopy k m).work2abs p = m.work2abs p := by
  obtain ⟨o, h1, h2, h3, h4⟩ := offset_copy m k hk h
  unfold work2abs
  rw [h1, h4]
  simp only
  have h5 : (asCopy k m).state.offset = m.state.offset := rfl
  rw [h5]
  cases p.add m.state.offset with
  | error e => rfl
  | ok q =>
    simp only
    unfold Position.add Position.zero
    simp only [h2, h3]

theorem setPos_copy (m : Machine) (k : ℕ) (hk : k ≠ 9) (h : NoOffsets m) (p : Position) :
    (asCopy k m).setPos p = (asCopy k (m.setPos p).1, (m.setPos p).2) := by
  unfold setPos
  rw [work2abs_copy m k hk h p]
  cases m.work2abs p with
  | error e => rfl
  | ok a =>
    simp only
    unfold updateRange
    simp only [asCopy]
    cases Position.min a m.rangeMin with
    | error e => rfl
    | ok lo => simp only; cases Position.max a m.rangeMax <;> rfl

theorem move_copy (m : Machine) (k : ℕ) (hk : k ≠ 9) (h : NoOffsets m) (cs : Coords) :
    (asCopy k m).move cs = (asCopy k (m.move cs).1, (m.move cs).2) := by
  have h1 : (asCopy k m).incremental = m.incremental := rfl
  have h2 : (asCopy k m).pos = m.pos := abs2work_copy m k hk h m.absPos
  have h3 : (asCopy k m).axes = m.axes := rfl
  unfold move
  rw [h1, h2, h3]
  cases m.incremental
  · simp only [Bool.false_eq_true, if_false]
    cases m.pos with
    | error e => rfl
    | ok p =>
      simp only
      split
      · rfl
      · split
        · rfl
        · rcases p.update _ with ⟨q, _ | e⟩
          · exact setPos_copy m k hk h q
          · rfl
  · simp only [if_true]
    cases m.pos with
    | error e => rfl
    | ok p =>
      simp only
      split
      · rfl
      · cases p.add _ with
        | error e => rfl
        | ok q => exact setPos_copy m k hk h q

theorem moves_copy (cs : Coords) (k : ℕ) (hk : k ≠ 9) (n : ℕ) (m : Machine) (hm : m.WF) (h : NoOffsets m) :
    (asCopy k m).moves cs n = (asCopy k (m.moves cs n).1, (m.moves cs n).2) := by
  induction n generalizing m with
  | zero => rfl
  | succ n ih =>
    have hp := path_moves cs 1 m hm
    rw [moves_one] at hp
    have hw := hp.wf hm
    have hn := noOffsets_of_frame hp.frame h
    unfold moves andThen
    rw [move_copy m k hk h]
    rcases hmv : m.move cs with ⟨m', _ | e⟩
    · rw [hmv] at hw hn
      exact ih m' hw hn
    · rfl

theorem effect_copy (m : Machine) (k : ℕ) (hk : k ≠ 9) (hm : m.WF) (h : NoOffsets m) (g : GCode) :
    (asCopy k m).effect g = (asCopy k (m.effect g).1, (m.effect g).2) := by
  have h1 : (asCopy k m).axes = m.axes := rfl
  have h2 : (asCopy k m).cannedCoords g = m.cannedCoords g := rfl
  unfold effect
  rw [h1, h2]
  cases g.cls.proc with
  | nothing => rfl
  | motion => exact move_copy m k hk h _
  | rapid => exact move_copy m k hk h _
  | cancel => rfl
  | canned =>
    simp only
    cases m.cannedCoords g with
    | error e => rfl
    | ok cs =>
      simp only
      cases loopCount g with
      | error e => rfl
      | ok n => exact moves_copy cs k hk n m hm h

/-- Not G59.3. -/
def Not9 (g : GCode) : Prop := g.cls.coordSys ≠ some 9

/-- Everything the comparison needs of the original machine. -/
structure Plain (m : Machine) : Prop where
  wf : m.WF
  noOffsets : NoOffsets m
  ok : ModeOK m.mode
  named : ModeAll Named m.mode
  not9 : ModeAll Not9 m.mode

theorem process_plain (m : Machine) (h : Plain m) (g : GCode) (hg : GOK g) (hn : Named g) (h9 : Not9 g) :
    Plain (m.process g).1 := by
  have hp := path_process m h.wf g hg
  have hmd := process_eq m g hg
  have he := (effect_mode (m.withMode (setIn m.mode g)) (withMode_wf m h.wf _) g).1
  rw [← hmd] at he
  have h1 := setIn_ok m.mode h.ok g hg
  have h2 := setIn_all Named (fun _ h => h) m.mode h.named g hn
  have h3 := setIn_all Not9 (fun _ h => h) m.mode h.not9 g h9
  have clear : ∀ (P : GCode → Prop) (md : Mode), ModeAll P md → ModeAll P (Function.update md 1 none) := by
    intro P md hmd k x hx
    by_cases hk : k = 1
    · subst hk; rw [Function.update_self] at hx; cases hx
    · rw [Function.update_of_ne hk] at hx; exact hmd k x hx
  refine ⟨hp.wf h.wf, noOffsets_of_frame hp.frame h.noOffsets, ?_, ?_, ?_⟩
  · rcases he with he | he <;> rw [he]
    · exact h1
    · intro k x hx
      by_cases hk : k = 1
      · subst hk; rw [Function.update_self] at hx; cases hx
      · rw [Function.update_of_ne hk] at hx; exact h1 k x hx
  · rcases he with he | he <;> rw [he]
    · exact h2
    · exact clear _ _ h2
  · rcases he with he | he <;> rw [he]
    · exact h3
    · exact clear _ _ h3

theorem process_copy (m : Machine) (h : Plain m) (k : ℕ) (hk : k ≠ 9) (g : GCode) (hg : GOK g) (h9 : Not9 g) :
    ∃ k', k' ≠ 9 ∧ (asCopy k m).process g = (asCopy k' (m.process g).1, (m.process g).2) := by
  rw [process_eq m g hg, process_eq _ g hg]
  have h3 := setIn_all Not9 (fun _ h => h) m.mode h.not9 g h9
  have hmd : (asCopy k m).mode = m.mode := rfl
  rw [hmd]
  have hw := withMode_wf m h.wf (setIn m.mode g)
  have hno := noOffsets_of_frame (frame_withMode m (setIn m.mode g)) h.noOffsets
  have key : ∃ k', k' ≠ 9 ∧ (asCopy k m).withMode (setIn m.mode g) = asCopy k' (m.withMode (setIn m.mode g)) := by
    cases hc : Mode.coordSystem (setIn m.mode g) with
    | none =>
      refine ⟨k, hk, ?_⟩
      unfold withMode
      rw [hc]
      rfl
    | some c =>
      refine ⟨c.cls.coordSys.getD 0, ?_, ?_⟩
      · have := h3 12 c hc
        unfold Not9 at this
        cases hcs : c.cls.coordSys with
        | none => simp
        | some j =>
          rw [hcs] at this
          simp only [Option.getD_some]
          rintro rfl
          exact this rfl
      · unfold withMode
        rw [hc]
        rfl
  obtain ⟨k', hk', he⟩ := key
  exact ⟨k', hk', by rw [he]; exact effect_copy _ k' hk' hw hno g⟩

theorem all_copy (gs : List GCode) (hg : ∀ g ∈ gs, GOK g ∧ Named g ∧ Not9 g) (m : Machine) (h : Plain m)
    (k : ℕ) (hk : k ≠ 9) :
    Plain (m.processAll gs).1 ∧
      ∃ k', k' ≠ 9 ∧ (asCopy k m).processAll gs = (asCopy k' (m.processAll gs).1, (m.processAll gs).2) := by
  induction gs generalizing m k with
  | nil => exact ⟨h, k, hk, rfl⟩
  | cons g gs ih =>
    obtain ⟨h1, h2, h3⟩ := hg g List.mem_cons_self
    obtain ⟨k', hk', he⟩ := process_copy m h k hk g h1 h3
    have hp := process_plain m h g h1 h2 h3
    unfold processAll andThen
    rw [he]
    rcases hpr : m.process g with ⟨m', _ | e⟩
    · rw [hpr] at hp
      exact ih (fun x hx => hg x (List.mem_cons_of_mem _ hx)) m' hp k' hk'
    · rw [hpr] at hp
      exact ⟨hp, k', hk', rfl⟩

theorem motion_not9 (c : Cls) (h : c.group = some 1) : c.coordSys ≠ some 9 := by
  have := Cls.forall_of_all (p := fun c => !(c.group == some 1) || c.coordSys != some 9) (by decide +kernel) c
  simpa [h] using this

theorem block_copy (gs : List GCode) (mp : List Word) (hg : ∀ g ∈ gs, GOK g ∧ Named g ∧ Not9 g)
    (hmp : ∀ w ∈ mp, wordClass w = none) (m : Machine) (h : Plain m) (k : ℕ) (hk : k ≠ 9) :
    Plain (m.processGcodes gs mp).1 ∧
      ∃ k', k' ≠ 9 ∧ (asCopy k m).processGcodes gs mp =
        (asCopy k' (m.processGcodes gs mp).1, (m.processGcodes gs mp).2) := by
  unfold processGcodes
  have hm : (asCopy k m).modalGcode mp = m.modalGcode mp := rfl
  rw [hm]
  cases hmg : m.modalGcode mp with
  | error e => exact ⟨h, k, hk, rfl⟩
  | ok og =>
    refine all_copy _ ?_ m h k hk
    intro g hgm
    have := (execSort_stable (gs ++ og.toList)).1.mem_iff.1 hgm
    rcases List.mem_append.1 this with h' | h'
    · exact hg g h'
    · have hog : og = some g := by simpa using h'
      subst hog
      by_cases hne : mp = []
      · subst hne; cases hmg
      · cases hmo : m.mode.motion with
        | none =>
          unfold modalGcode at hmg
          rw [if_neg hne, hmo] at hmg
          simp only at hmg
          split_ifs at hmg
          cases hmg
        | some x =>
          have hx := h.ok 1 x hmo
          have hnx := h.named 1 x hmo
          have hgok := modalGcode_gok hmg
          rw [modalGcode_closed m x hmo hx.2.1 hnx mp hne hmp] at hmg
          split_ifs at hmg
          cases hmg
          exact ⟨hgok, hnx, motion_not9 _ hx.1⟩

/-- What a user sees of a machine after each block of a program: mode, position, work position,
range, exception. -/
def reports (m : Machine) : List (List GCode × List Word) →
    List (Mode × Position × Except Err Position × Position × Position × Option Err)
  | [] => []
  | (gs, mp) :: r =>
    let o := m.processGcodes gs mp
    (o.1.mode, o.1.absPos, o.1.pos, o.1.rangeMin, o.1.rangeMax, o.2) :: reports o.1 r

/-- C41, when copies are equivalent: if no coordinate system has an offset, then original and copy
cannot be told apart by any program that does not select G59.3. -/
theorem C41_equivalent_partial (p : List (List GCode × List Word))
    (hp : ∀ b ∈ p, (∀ g ∈ b.1, GOK g ∧ Named g ∧ Not9 g) ∧ ∀ w ∈ b.2, wordClass w = none)
    (m : Machine) (h : Plain m) : reports m.copy p = reports m p := by
  have key : ∀ (m : Machine) (k : ℕ), Plain m → k ≠ 9 → reports (asCopy k m) p = reports m p := by
    clear h m
    induction p with
    | nil => intros; rfl
    | cons b p ih =>
      intro m k h hk
      obtain ⟨gs, mp⟩ := b
      have hb := hp (gs, mp) List.mem_cons_self
      obtain ⟨hpl, k', hk', he⟩ := block_copy gs mp hb.1 hb.2 m h k hk
      unfold reports
      simp only
      rw [he, ih (fun b hb => hp b (List.mem_cons_of_mem _ hb)) _ k' hpl hk']
      have hpos : (asCopy k' (m.processGcodes gs mp).1).pos = (m.processGcodes gs mp).1.pos :=
        abs2work_copy _ k' hk' hpl.noOffsets _
      rw [hpos]
      rfl
  exact key m 1 h (by decide)

theorem new_plain : Plain newNull := by
  refine ⟨newWith_wf xyz Mode.null, ⟨fun _ => Position.zero xyz, rfl, fun _ => ⟨rfl, fun _ => rfl⟩⟩,
    null_ok.1, null_ok.2, ?_⟩
  intro k g hg
  cases hg

/-- A program on which original and copy agree, and a program with G59.3 on which they do not. -/
example : reports newNull.copy [([sampleMove], []), ([], [⟨'X', .num 7⟩])] =
    reports newNull [([sampleMove], []), ([], [⟨'X', .num 7⟩])] := by
  refine C41_equivalent_partial _ ?_ newNull new_plain
  intro b hb
  simp only [List.mem_cons, List.not_mem_nil, or_false] at hb
  rcases hb with rfl | rfl
  · refine ⟨?_, by simp⟩
    intro g hg
    simp only [List.mem_cons, List.not_mem_nil, or_false] at hg
    subst hg
    unfold GOK Named Not9
    decide +kernel
  · refine ⟨by simp, ?_⟩
    decide +kernel
example : (reports newNull [([sampleMove], []), ([], [⟨'X', .num 7⟩])]).map (fun r => (r.2.1.val .X, r.2.2.2.2.2)) =
    [(3, none), (7, none)] := by decide +kernel
example : let g9 : GCode := ⟨.selectCoordinateSystem9, ⟨'G', .num 59.3⟩, [], false⟩
    ((newNull.processGcodes [g9, sampleMove] []).2, (newNull.copy.processGcodes [g9, sampleMove] []).2) =
      (none, some .index) := by decide +kernel

end Pygcode
