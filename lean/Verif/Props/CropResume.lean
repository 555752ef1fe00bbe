import Verif.Props.CropOpen
import Verif.Props.Published
import Verif.Props.NormOutcome

/-!
# C93: a cropped file goes on as the file does

What `pygcode-crop` prints, read by a new machine: after every printed line the machine is where the file led the
script's machine.
-/

namespace Pygcode
open Props Machine Spec

/-! ## Specification -/

/-- The line is printed without a change of its meaning (the conditions of C13). -/
structure Faithful (l : Line) : Prop where
  plain : ∀ w ∈ l.block.words, PlainWord w
  later : ∀ g ∈ l.block.gcodes, ∀ w ∈ l.block.modalParams, w.letter ∉ g.cls.params
  comment : l.macro? = none ∨ ∀ c, l.comment = some (.semicolon c) → c = []

/-- The line sets the motion mode: it has a gcode of the published group of motions. -/
def SetsMotion (l : Line) : Prop := ∃ g ∈ l.block.gcodes, Table.group g.word.letter g.word.num = some 1

/-- No line has words for the motion mode before a line has set it. -/
def MotionFirst : List Line → Prop
  | [] => True
  | l :: ls => l.block.modalParams = [] ∧ (SetsMotion l ∨ MotionFirst ls)

/-- The motion mode is G0. -/
def RapidMode (m : Machine) : Prop := ∃ g, m.mode.motion = some g ∧ g.word = ⟨'G', .num 0⟩

/-! ## Machines that were new -/

/-- What holds of every machine that has only read texts. -/
structure FromNull (m : Machine) : Prop where
  sound : Sound m
  frame : Frame newNull m
  cur : m.mode 12 = none → m.state.cur = newNull.state.cur

theorem fromNull_new : FromNull newNull := ⟨(reader_null xyz).sound, .refl _, fun _ => rfl⟩

theorem setIn_none {md : Mode} {g : GCode} {k : ℕ} (h : setIn md g k = none) : md k = none := by
  unfold setIn at h
  cases hg : g.cls.group with
  | none => rw [hg] at h; exact h
  | some j =>
    rw [hg] at h
    simp only at h
    by_cases hj : k = j
    · subst hj; rw [Function.update_self] at h; cases h
    · rwa [Function.update_of_ne hj] at h

theorem FromNull.process {m : Machine} (h : FromNull m) (g : GCode) (hg : GOK g) (hn : Named g) : FromNull (m.process g).1 := by
  refine ⟨h.sound.process g hg hn, h.frame.trans (path_process m h.sound.wf g hg).frame, ?_⟩
  rw [process_eq m g hg, effect_mode_eq _ (withMode_wf m h.sound.wf _), (effect_mode _ (withMode_wf m h.sound.wf _) g).2]
  intro hm
  have h12 : setIn m.mode g 12 = none := by
    by_cases hp : g.cls.proc = .cancel
    · rw [if_pos hp, Function.update_of_ne (by decide)] at hm; exact hm
    · rw [if_neg hp] at hm; exact hm
  have : (m.withMode (setIn m.mode g)).state.cur = m.state.cur := by
    unfold withMode
    have e : Mode.coordSystem (setIn m.mode g) = none := h12
    simp only [e]
  rw [this]
  exact h.cur (setIn_none h12)

theorem FromNull.all {gs : List GCode} (hg : ∀ g ∈ gs, GOK g) (hn : ∀ g ∈ gs, Named g) :
    ∀ {m : Machine}, FromNull m → FromNull (m.processAll gs).1 := by
  induction gs with
  | nil => exact fun h => h
  | cons g gs ih =>
    intro m h
    have h1 := h.process g (hg g (by simp)) (hn g (by simp))
    unfold processAll andThen
    rcases hpr : m.process g with ⟨m', _ | e⟩
    · rw [hpr] at h1
      exact ih (fun x hx => hg x (by simp [hx])) (fun x hx => hn x (by simp [hx])) h1
    · rw [hpr] at h1; exact h1

theorem FromNull.str {m : Machine} (h : FromNull m) (t : List Char) : FromNull (m.processStr t).1 := by
  unfold processStr
  cases hl : Line.ofText t with
  | error e => exact h
  | ok l =>
    have hb := line_block_ok hl
    simp only
    unfold processBlock processGcodes
    cases hx : m.modalGcode l.block.modalParams with
    | error e => exact h
    | ok og =>
      simp only
      refine FromNull.all (sort_gok hb.ok (fun g hog => modalGcode_gok (by rw [hx, hog]))) ?_ h
      intro g hgm
      rcases List.mem_append.1 ((execSort_stable _).1.mem_iff.1 hgm) with h1 | h1
      · exact hb.cls g h1
      · exact kept_named.modal (m := m) (mp := l.block.modalParams) (by rw [hx]; simp at h1; rw [h1])

theorem FromNull.lines {m : Machine} (h : FromNull m) (ts : List (List Char)) : FromNull (readLines m ts).1 := by
  induction ts generalizing m with
  | nil => exact h
  | cons t ts ih =>
    have h1 := h.str t
    unfold readLines andThen
    rcases hpr : m.processStr t with ⟨m', _ | e⟩
    · rw [hpr] at h1; exact ih h1
    · rw [hpr] at h1; exact h1

theorem trace_fromNull {i : ℕ} {m : Machine} {ts : List (List Char)} {ss : List CropStep} (h : CropTrace i m ts ss)
    (hm : FromNull m) : ∀ s ∈ ss, FromNull s.before := by
  induction h with
  | nil => simp
  | @cons i m t ts l m' p ss h1 h2 h3 h4 ih =>
    have hstr : m.processStr t = (m', none) := by unfold processStr; rw [h1]; exact h2
    have := hm.str t
    rw [hstr] at this
    intro s hs
    rcases List.mem_cons.1 hs with rfl | hs
    · exact hm
    · exact ih this s hs

/-- New machines with the same position and modes, up to the motion mode. -/
theorem near_of {a b : Machine} (ha : FromNull a) (hb : FromNull b) (hp : ∀ x, b.absPos.val x = a.absPos.val x)
    (hm : ∀ k, k ≠ 1 → Option.Rel SameGCode (a.mode k) (b.mode k)) : NearTo a b := by
  refine ⟨ha.frame.axes.trans hb.frame.axes.symm, ha.frame.ignore.trans hb.frame.ignore.symm, ?_, ?_, hm⟩
  · have h12 := hm 12 (by decide)
    have hcur : a.state.cur = b.state.cur := by
      cases hx : a.mode 12 with
      | none =>
        rw [hx] at h12
        have hy : b.mode 12 = none := by
          generalize b.mode 12 = y at h12
          cases h12; rfl
        rw [ha.cur hx, hb.cur hy]
      | some g =>
        rw [hx] at h12
        obtain ⟨g', hy, hs⟩ : ∃ g', b.mode 12 = some g' ∧ SameGCode g g' := by
          generalize b.mode 12 = y at h12
          cases h12 with
          | some s => exact ⟨_, rfl, s⟩
        rw [ha.sound.sync g hx, hb.sound.sync g' hy, hs.1]
    have h1 := ha.frame.systems.trans hb.frame.systems.symm
    have h2 := ha.frame.offset.trans hb.frame.offset.symm
    generalize a.state = s at *
    generalize b.state = s' at *
    cases s; cases s'
    simp only at h1 h2 hcur
    rw [h1, h2, hcur]
  · have h1 : a.absPos.axes = b.absPos.axes := by
      rw [ha.sound.wf.abs, hb.sound.wf.abs, ha.frame.axes, hb.frame.axes]
    have h2 := ha.frame.unit.trans hb.frame.unit.symm
    have h3 : a.absPos.val = b.absPos.val := funext (fun x => (hp x).symm)
    generalize a.absPos = p at *
    generalize b.absPos = q at *
    cases p; cases q
    simp only at h1 h2 h3
    rw [h1, h2, h3]

/-! ## Lines -/

/-- Gcodes that set the motion mode make the motion modes equal. -/
theorem processAll_regain {gs gs' : List GCode} (hs : List.Forall₂ SameGCode gs gs') (hg : ∀ g ∈ gs, GOK g) :
    ∀ {a b a' : Machine}, NearTo a b → a.WF → b.WF → a.processAll gs = (a', none) →
      ∃ b', b.processAll gs' = (b', none) ∧ NearTo a' b' ∧
        ((Option.Rel SameGCode (a.mode 1) (b.mode 1) ∨ ∃ g ∈ gs, g.cls.group = some 1 ∨ g.cls.proc = .cancel) →
          Option.Rel SameGCode (a'.mode 1) (b'.mode 1)) := by
  induction hs with
  | nil =>
    intro a b a' h _ _ hp
    cases hp
    exact ⟨b, rfl, h, fun h => by simpa using h⟩
  | @cons g g' gs gs' h1 _ ih =>
    intro a b a' h ha hb hp
    have hgg := hg g (by simp)
    have hn := process_near h ha hb h1 hgg
    have w1 := (path_process a ha g hgg).wf ha
    have w2 := (path_process b hb g' (h1.gok hgg)).wf hb
    have s1 := process_slot a ha g hgg
    have s2 := process_slot b hb g' (h1.gok hgg)
    unfold processAll andThen at hp ⊢
    generalize a.process g = r at *
    generalize b.process g' = s at *
    obtain ⟨r, er⟩ := r
    obtain ⟨s, es⟩ := s
    obtain ⟨h3, h4⟩ := hn
    simp only at h3 h4 w1 w2 s1 s2
    subst h4
    cases er with
    | some e => cases hp
    | none =>
      obtain ⟨b', hb', hnear, hmot⟩ := ih (fun x hx => hg x (by simp [hx])) h3 w1 w2 hp
      refine ⟨b', hb', hnear, fun hx => hmot ?_⟩
      rw [s1, s2, ← h1.1]
      rcases hx with hx | ⟨x, hx, hset⟩
      · left
        split_ifs
        · exact .none
        · exact .some h1.copy
        · exact hx
      · rcases List.mem_cons.1 hx with rfl | hx
        · left
          by_cases hc : x.cls.proc = .cancel
          · rw [if_pos hc, if_pos hc]; exact .none
          · rw [if_neg hc, if_neg hc, if_pos (hset.resolve_right hc), if_pos (hset.resolve_right hc)]
            exact .some h1.copy
        · exact .inr ⟨x, hx, hset⟩

theorem table_motion {g : GCode} (hn : Named g) (h : Table.group g.word.letter g.word.num = some 1) :
    g.cls.group = some 1 ∨ g.cls.proc = .cancel := by
  by_cases h80 : g.word = g80
  · right
    have := hn
    unfold Named at this
    rw [h80, C91_cancel_refuted.2.1] at this
    rw [← Option.some.inj this]
    decide +kernel
  · left
    rw [C91_group_partial g.word g.cls hn h80, h]

/-- A line and what is printed for it. -/
theorem line_resume {a b a' : Machine} (h : NearTo a b) (ha : Sound a) (hb : Sound b) {t : List Char} {l : Line}
    (hl : Line.ofText t = .ok l) (hk : Faithful l)
    (hm : l.block.modalParams = [] ∨ Option.Rel SameGCode (a.mode 1) (b.mode 1)) (hp : a.processBlock l.block = (a', none)) :
    ∃ b', b.processStr l.str = (b', none) ∧ NearTo a' b' ∧
      ((Option.Rel SameGCode (a.mode 1) (b.mode 1) ∨ SetsMotion l) → Option.Rel SameGCode (a'.mode 1) (b'.mode 1)) := by
  obtain ⟨l', hl', hgs, hmp, -⟩ := C13_stable t l hl hk.plain hk.later hk.comment
  have hbl := line_block_ok hl
  unfold processStr
  rw [hl']
  simp only
  unfold processBlock processGcodes at hp ⊢
  rw [hmp]
  have hmo : SameModal (a.modalGcode l.block.modalParams) (b.modalGcode l.block.modalParams) := by
    rcases hm with h0 | hm
    · rw [h0]; exact .none
    · exact modalGcode_motion h.ignore hm ha.ok ha.named _ hbl.unused
  cases hx : a.modalGcode l.block.modalParams with
  | error e => rw [hx] at hp; cases hp
  | ok og =>
    rw [hx] at hmo hp
    cases hy : b.modalGcode l.block.modalParams with
    | error e' => rw [hy] at hmo; exact hmo.elim
    | ok og' =>
      rw [hy] at hmo
      simp only at hp ⊢
      have hot : List.Forall₂ SameGCode og.toList og'.toList := by
        change Option.Rel SameGCode og og' at hmo
        cases hmo with
        | none => exact .nil
        | some s => exact .cons s .nil
      obtain ⟨b', h1, h2, h3⟩ := processAll_regain (execSort_same (List.rel_append hgs hot))
        (sort_gok hbl.ok (fun g hog => modalGcode_gok (by rw [hx, hog]))) h ha.wf hb.wf hp
      refine ⟨b', h1, h2, fun hs => h3 (hs.imp_right ?_)⟩
      rintro ⟨g, hg, ht⟩
      exact ⟨g, (execSort_stable _).1.mem_iff.2 (List.mem_append_left _ hg), table_motion (hbl.cls g hg) ht⟩

/-- The lines from some line on. -/
theorem lines_resume {us rest : List CropStep} : ∀ {i : ℕ} {a b : Machine} {ts : List (List Char)},
    CropTrace i a ts (us ++ rest) → NearTo a b → FromNull a → FromNull b → (∀ u ∈ us, Faithful u.line) →
    (Option.Rel SameGCode (a.mode 1) (b.mode 1) ∨ MotionFirst (us.map CropStep.line)) →
    ∃ a' b', readLines a (ts.take us.length) = (a', none) ∧ readLines b (us.map (fun u => u.line.str)) = (b', none) ∧
      NearTo a' b' ∧ (∀ u ∈ us.getLast?, a'.pos = .ok u.pos) ∧
      (Option.Rel SameGCode (a.mode 1) (b.mode 1) ∨ (∃ u ∈ us, SetsMotion u.line) → Option.Rel SameGCode (a'.mode 1) (b'.mode 1)) := by
  induction us with
  | nil =>
    intro i a b ts _ h _ _ _ _
    exact ⟨a, b, rfl, rfl, h, by simp, fun h => by simpa using h⟩
  | cons u us ih =>
    intro i a b ts htr h ha hb hk hm
    cases htr with
    | @cons _ _ t ts l a₁ p _ h1 h2 h3 h4 =>
      have hstr : a.processStr t = (a₁, none) := by unfold processStr; rw [h1]; exact h2
      have hmp : l.block.modalParams = [] ∨ Option.Rel SameGCode (a.mode 1) (b.mode 1) := by
        rcases hm with hm | hm
        · exact .inr hm
        · exact .inl hm.1
      obtain ⟨b₁, hb1, hn1, hr1⟩ := line_resume h ha.sound hb.sound h1 (hk _ List.mem_cons_self) hmp h2
      have ha1 := ha.str t
      rw [hstr] at ha1
      have hbs := hb.str l.str
      rw [hb1] at hbs
      have hm1 : Option.Rel SameGCode (a₁.mode 1) (b₁.mode 1) ∨ MotionFirst (us.map CropStep.line) := by
        rcases hm with hm | ⟨-, hm | hm⟩
        · exact .inl (hr1 (.inl hm))
        · exact .inl (hr1 (.inr hm))
        · exact .inr hm
      obtain ⟨a', b', r1, r2, r3, r4, r5⟩ := ih h4 hn1 ha1 hbs (fun x hx => hk x (List.mem_cons_of_mem _ hx)) hm1
      refine ⟨a', b', ?_, ?_, r3, ?_, ?_⟩
      · rw [List.length_cons, List.take_succ_cons]
        unfold readLines andThen
        rw [hstr]
        exact r1
      · rw [List.map_cons]
        unfold readLines andThen
        simp only [hb1]
        exact r2
      · intro x hx
        cases us with
        | nil =>
          simp at hx
          subst hx
          simp only [List.length_nil, List.take_zero, readLines, Prod.mk.injEq, and_true] at r1
          rw [← r1]; exact h3
        | cons v vs =>
          rw [List.getLast?_cons_cons] at hx
          exact r4 x hx
      · intro hx
        apply r5
        rcases hx with hx | ⟨x, hx, hset⟩
        · exact .inl (hr1 (.inl hx))
        · rcases List.mem_cons.1 hx with rfl | hx
          · exact .inl (hr1 (.inr hset))
          · exact .inr ⟨x, hx, hset⟩

theorem trace_split {xs ys : List CropStep} : ∀ {i : ℕ} {m : Machine} {ts : List (List Char)}, CropTrace i m ts (xs ++ ys) →
    ∃ m', readLines m (ts.take xs.length) = (m', none) ∧ CropTrace (i + xs.length) m' (ts.drop xs.length) ys := by
  induction xs with
  | nil => exact fun h => ⟨_, rfl, h⟩
  | cons x xs ih =>
    intro i m ts h
    cases h with
    | @cons _ _ t ts l m₁ p _ h1 h2 h3 h4 =>
      obtain ⟨m', r1, r2⟩ := ih h4
      refine ⟨m', ?_, ?_⟩
      · rw [List.length_cons, List.take_succ_cons]
        unfold readLines andThen
        have hstr : m.processStr t = (m₁, none) := by unfold processStr; rw [h1]; exact h2
        rw [hstr]
        exact r1
      · rw [List.length_cons, List.drop_succ_cons, ← Nat.add_assoc, Nat.add_right_comm]
        exact r2

theorem rapid_same {m : Machine} (h : Sound m) (hr : RapidMode m) :
    Option.Rel SameGCode (m.mode 1) (some ⟨.rapidMove, ⟨'G', .num 0⟩, [], false⟩) := by
  obtain ⟨g, hg, hw⟩ := hr
  have hg : m.mode 1 = some g := hg
  rw [hg]
  have hn := h.named 1 g hg
  unfold Named at hn
  rw [hw, show wordClass ⟨'G', .num 0⟩ = some .rapidMove by decide +kernel] at hn
  have hc := Option.some.inj hn
  refine .some ⟨hc.symm, hw, ?_⟩
  have hp := (h.ok 1 g hg).2.2
  rw [← hc, show Cls.modalParams .rapidMove = [] by decide +kernel] at hp
  have : g.params = [] := List.eq_nil_iff_forall_not_mem.2 (fun w hw => by simpa using hp w hw)
  rw [this]

/-- **C93** (lines): the preamble for a line and the lines printed from there on, read by a new machine, lead it to the
state of the file after these lines: position, coordinate system, and all modes, the motion mode as soon as it is set. -/
theorem C93_lines {ts : List (List Char)} {ss : List CropStep} (h : CropTrace 0 newNull ts ss) {xs ys zs : List CropStep}
    {s : CropStep} (hd : ss = xs ++ s :: ys ++ zs) {n : Axis} (hc : Croppable s.before n) (hk : ∀ u ∈ s :: ys, Faithful u.line)
    (hm : RapidMode s.before ∨ MotionFirst ((s :: ys).map CropStep.line)) :
    ∃ a b, readLines newNull (ts.take (xs ++ s :: ys).length) = (a, none) ∧
      readLines newNull ((cropPreamble s.before.copy).1 ++ (s :: ys).map (fun u => u.line.str)) = (b, none) ∧
      NearTo a b ∧ (∀ u ∈ (s :: ys).getLast?, b.pos = .ok u.pos) ∧
      (RapidMode s.before ∨ (∃ u ∈ s :: ys, SetsMotion u.line) → Option.Rel SameGCode (a.mode 1) (b.mode 1)) := by
  have hs : s ∈ ss := by rw [hd]; simp
  have hb := trace_fromNull h fromNull_new s hs
  obtain ⟨out, M, p1, p2, p3, p4, p5⟩ := C64_position_partial h s hs n hc newNull (by
    have := trace_clear h
    obtain ⟨x, ts', rfl⟩ : ∃ x ts', ts = x :: ts' := by
      cases h with
      | nil => cases hs
      | cons => exact ⟨_, _, rfl⟩
    cases h with
    | cons h1 h2 h3 h4 => exact (this _ List.mem_cons_self).1) (fun _ => rfl)
  have hM := fromNull_new.lines out
  rw [p2] at hM
  have hnear : NearTo s.before M := near_of hb hM p3 (fun k hk => by
    obtain ⟨q1, q2⟩ := p4 k hk
    cases hx : s.before.mode k with
    | none => rw [q1 hx]; exact .none
    | some g =>
      obtain ⟨g', hg', hsg⟩ := q2 g hx
      rw [hg']
      exact .some hsg)
  rw [hd, List.append_assoc] at h
  obtain ⟨m', r1, r2⟩ := trace_split h
  have hm' : m' = s.before := by
    rw [List.cons_append] at r2
    generalize ts.drop xs.length = ts' at r2
    cases r2
    rfl
  subst hm'
  have hrel : RapidMode s.before → Option.Rel SameGCode (s.before.mode 1) (M.mode 1) := fun hr => by
    rw [p5]; exact rapid_same hb.sound hr
  obtain ⟨a, b, k1, k2, k3, k4, k5⟩ := lines_resume r2 hnear hb hM hk (hm.imp_left hrel)
  refine ⟨a, b, ?_, ?_, k3, ?_, ?_⟩
  · rw [List.length_append, List.take_add, readLines_append, r1]
    exact k1
  · rw [p1, readLines_append, p2]
    exact k2
  · intro u hu
    rw [← k3.pos]
    exact k4 u hu
  · intro hx
    exact k5 (hx.imp_left hrel)

/-- What is printed, for a file in which the first and the last line of the range are known. -/
theorem crop_eq (r : CropRange) (hr : r.Usual) {ts : List (List Char)} {ss : List CropStep} (h : CropTrace 0 newNull ts ss)
    (hp : ∀ s ∈ ss, normalOf s.before.mode ≠ none) {xs ys zs : List CropStep}
    {s : CropStep} (hd : ss = xs ++ s :: ys ++ zs) (hx : ∀ x ∈ xs, ¬ Begins r x) (hs : Begins r s)
    (hy : ∀ y ∈ s :: ys, ¬ Stops r y) (hz : ∀ z ∈ zs.head?, Stops r z) :
    crop r ts = ((cropPreamble s.before.copy).1 ++ (s :: ys).map (fun u => u.line.str), none) := by
  classical
  have huniq : ∀ {xs' zs'' : List CropStep} {s' : CropStep}, ss = xs' ++ s' :: zs'' → (∀ x ∈ xs', ¬ Begins r x) →
      Begins r s' → xs = xs' ∧ s = s' ∧ ys ++ zs = zs'' := by
    intro xs' zs'' s' he hx' hs'
    refine first_unique (q := fun x => decide (Begins r x)) ?_ (by simpa using hx) (by simpa using hs) (by simpa using hx')
      (by simpa using hs')
    rw [← he, hd, List.append_assoc, List.cons_append]
  rcases C63_crop r hr h hp with ⟨-, hnone⟩ | ⟨xs', s', ys', zs', he, hcr, hxs, hs', hys, hzs⟩ | ⟨xs', s', zs', he, -, hxs, hs', hst⟩
  · exact absurd hs (hnone s (by rw [hd]; simp))
  · obtain ⟨rfl, rfl, hyz⟩ := huniq (by rw [he, List.append_assoc, List.cons_append]) hxs hs'
    have htake : ∀ {ys zs : List CropStep}, (∀ y ∈ s :: ys, ¬ Stops r y) → (∀ z ∈ zs.head?, Stops r z) →
        (ys ++ zs).takeWhile (fun x => !decide (Stops r x)) = ys := by
      intro ys zs h1 h2
      rw [List.takeWhile_append_of_pos (by
        intro y hy
        simpa using h1 y (List.mem_cons_of_mem _ hy))]
      cases zs with
      | nil => simp
      | cons z zs => rw [List.takeWhile_cons_of_neg (by simpa using h2 z rfl), List.append_nil]
    have : ys = ys' := by
      rw [← htake hy hz, hyz, htake hys hzs]
    rw [hcr, this]
  · obtain ⟨-, rfl, -⟩ := huniq he hxs hs'
    exact absurd hst (hy s List.mem_cons_self)

/-- **C93** (crop): what `pygcode-crop` prints, read by a new machine, leads it line by line where the file led the
script's machine. -/
theorem C93_crop (r : CropRange) (hr : r.Usual) {ts : List (List Char)} {ss : List CropStep} (h : CropTrace 0 newNull ts ss)
    (hp : ∀ s ∈ ss, normalOf s.before.mode ≠ none) {xs ys zs : List CropStep}
    {s : CropStep} (hd : ss = xs ++ s :: ys ++ zs) (hx : ∀ x ∈ xs, ¬ Begins r x) (hs : Begins r s)
    (hy : ∀ y ∈ s :: ys, ¬ Stops r y) (hz : ∀ z ∈ zs.head?, Stops r z) {n : Axis} (hc : Croppable s.before n)
    (hk : ∀ u ∈ s :: ys, Faithful u.line) (hm : RapidMode s.before ∨ MotionFirst ((s :: ys).map CropStep.line)) :
    ∃ pre, crop r ts = (pre ++ (s :: ys).map (fun u => u.line.str), none) ∧
      ∀ us u, us ++ [u] <+: s :: ys → ∃ a b, readLines newNull (ts.take (xs.length + us.length + 1)) = (a, none) ∧
        readLines newNull (pre ++ (us ++ [u]).map (fun u => u.line.str)) = (b, none) ∧ NearTo a b ∧ b.pos = .ok u.pos ∧
        (RapidMode s.before ∨ (∃ v ∈ us ++ [u], SetsMotion v.line) → Option.Rel SameGCode (a.mode 1) (b.mode 1)) := by
  have hcrop := crop_eq r hr h hp hd hx hs hy hz
  refine ⟨_, hcrop, fun us u hus => ?_⟩
  obtain ⟨vs, hvs⟩ := hus
  obtain ⟨ws, hws⟩ : ∃ ws, us ++ [u] = s :: ws := by
    cases us with
    | nil => simp at hvs; exact ⟨[], by simp [hvs.1]⟩
    | cons x us => simp at hvs; exact ⟨us ++ [u], by simp [hvs.1]⟩
  have hsub : ∀ v ∈ s :: ws, v ∈ s :: ys := fun v hv => by rw [← hvs, hws]; simp at hv ⊢; tauto
  have hmf : ∀ (l l' : List Line), MotionFirst (l ++ l') → MotionFirst l := by
    intro l l' hl
    induction l with
    | nil => trivial
    | cons x l ih => exact ⟨hl.1, hl.2.imp_right ih⟩
  obtain ⟨a, b, h1, h2, h3, h4, h5⟩ := C93_lines (xs := xs) (zs := vs ++ zs) (ys := ws) h (by
      rw [hd, ← hvs, hws]; simp) hc (fun v hv => hk v (hsub v hv)) (hm.imp_right (fun hm => by
        rw [← hvs, hws, List.map_append] at hm
        exact hmf _ _ hm))
  refine ⟨a, b, ?_, ?_, h3, h4 u (by rw [← hws]; simp), fun hx => h5 (by rw [← hws]; exact hx)⟩
  · rw [← h1, List.length_append, ← hws]; simp [Nat.add_assoc]
  · rw [← h2, hws]

/-! ## Where it does not hold -/

/-- If the first line has words for another motion mode than G0, the printed program may not be accepted. -/
theorem C93_motion_refuted :
    let file := ["G90 G17 G1 F100 X1", "G2 X3 I1", "X5 I1"]
    (readLines newNull (file.map String.toList)).2 = none ∧ (cropRun "3:" file).map Prod.snd = some (some .invalidState) := by
  decide +kernel

/-! ## Instances -/

theorem trace_lines {i : ℕ} {m : Machine} {ts : List (List Char)} {ss : List CropStep} (h : CropTrace i m ts ss) :
    ts.map Line.ofText = ss.map (fun s => .ok s.line) := by
  induction h with
  | nil => rfl
  | cons h1 _ _ _ ih => rw [List.map_cons, List.map_cons, h1, ih]

/-- A program with a tool path that goes on after line 3. -/
def resumeFile : List (List Char) :=
  ["G90 G17 G1 F100 X1", "Z5", "X2.5 Y-7 Z4", "M8 (on)", "G1 X3", "Y8 F50"].map String.toList

/-- Its last three lines. -/
def resumeLines : List Line :=
  [⟨⟨[⟨'M', .num 8⟩], [⟨.coolantFloodOn, ⟨'M', .num 8⟩, [], false⟩], []⟩, some (.brackets "on".toList), none⟩,
   ⟨⟨[⟨'G', .num 1⟩, ⟨'X', .num 3⟩], [⟨.linearMove, ⟨'G', .num 1⟩, [⟨'X', .num 3⟩], false⟩], []⟩, none, none⟩,
   ⟨⟨[⟨'Y', .num 8⟩, ⟨'F', .num 50⟩], [⟨.feedRate, ⟨'F', .num 50⟩, [], false⟩], [⟨'Y', .num 8⟩]⟩, none, none⟩]

/-- Its steps, with the conditions of the theorems. -/
theorem resume_steps : ∃ (xs ys : List CropStep) (s : CropStep), CropTrace 0 newNull resumeFile (xs ++ s :: ys ++ []) ∧
    (∀ x ∈ xs ++ s :: ys ++ [], normalOf x.before.mode ≠ none) ∧
    Croppable s.before .Z ∧ (∀ u ∈ s :: ys, Faithful u.line) ∧ MotionFirst ((s :: ys).map CropStep.line) ∧
    (s :: ys).map (fun u => u.line.str) = ["M08 (on)", "G01 X3", "F50 Y8"].map String.toList ∧ xs.length = 3 ∧
    (∀ x ∈ xs, ¬ Begins ⟨some [⟨'N', .eq, 4⟩], none⟩ x) ∧ Begins ⟨some [⟨'N', .eq, 4⟩], none⟩ s := by
  obtain ⟨ss, h⟩ := trace_exists resumeFile 0 newNull (by decide +kernel)
  have hl := trace_lines h
  obtain ⟨hlen, hn⟩ := trace_numbers h
  have hlen : ss.length = 6 := hlen
  have hpl : ∀ s ∈ ss, normalOf s.before.mode ≠ none := by
    intro s hs
    obtain ⟨k, hk, rfl⟩ := List.getElem_of_mem hs
    rw [(trace_before h _ hs).2, hn k hk]
    have : k = 0 ∨ k = 1 ∨ k = 2 ∨ k = 3 ∨ k = 4 ∨ k = 5 := by omega
    rcases this with rfl | rfl | rfl | rfl | rfl | rfl <;> decide +kernel
  obtain ⟨s1, s2, s3, s4, s5, s6, rfl⟩ : ∃ s1 s2 s3 s4 s5 s6, ss = [s1, s2, s3, s4, s5, s6] := by
    rcases ss with _ | ⟨s1, _ | ⟨s2, _ | ⟨s3, _ | ⟨s4, _ | ⟨s5, _ | ⟨s6, _ | ⟨s7, ss⟩⟩⟩⟩⟩⟩⟩ <;> simp at hlen
    exact ⟨_, _, _, _, _, _, rfl⟩
  have hlines : [s4.line, s5.line, s6.line] = resumeLines := by
    have h4 : (resumeFile.map Line.ofText).drop 3 = resumeLines.map .ok := by decide +kernel
    rw [hl] at h4
    simpa [resumeLines] using h4
  have hb : s4.before = cropSample := by
    rw [(trace_before h s4 (by simp)).2, show s4.n = 4 from hn 3 (by simp)]
    exact cropSample_run
  have hn1 : s1.n = 1 := hn 0 (by simp)
  have hn2 : s2.n = 2 := hn 1 (by simp)
  have hn3 : s3.n = 3 := hn 2 (by simp)
  have hn4 : s4.n = 4 := hn 3 (by simp)
  have hbeg : ∀ s : CropStep, Begins ⟨some [⟨'N', .eq, 4⟩], none⟩ s ↔ s.n = 4 := by
    intro s
    unfold Begins Met
    have : ∀ x : Axis, 'N' ≠ x.letter := by intro x; cases x <;> decide
    simp [CmpOp.Means, this]
    norm_cast
  have hmem : ∀ u ∈ [s4, s5, s6], u.line ∈ resumeLines := by
    intro u hu
    rw [← hlines]
    simpa using List.mem_map_of_mem (f := CropStep.line) hu
  have hf : ∀ u ∈ [s4, s5, s6], Faithful u.line := by
    intro u hu
    refine ⟨fun w hw => ?_, ?_, ?_⟩
    · have : ∀ l ∈ resumeLines, ∀ w ∈ l.block.words, plainB w = true := by decide +kernel
      exact plainB_sound (this _ (hmem u hu) w hw)
    · have : ∀ l ∈ resumeLines, ∀ g ∈ l.block.gcodes, ∀ w ∈ l.block.modalParams, w.letter ∉ g.cls.params := by decide +kernel
      exact this _ (hmem u hu)
    · have : ∀ l ∈ resumeLines, l.macro? = none := by decide +kernel
      exact .inl (this _ (hmem u hu))
  have hmf : MotionFirst ([s4, s5, s6].map CropStep.line) := by
    show MotionFirst [s4.line, s5.line, s6.line]
    rw [hlines]
    refine ⟨rfl, .inr ⟨rfl, .inl ⟨_, List.mem_cons_self, by decide +kernel⟩⟩⟩
  have hstr : [s4, s5, s6].map (fun u => u.line.str) = ["M08 (on)", "G01 X3", "F50 Y8"].map String.toList := by
    have : [s4, s5, s6].map (fun u => u.line.str) = [s4.line, s5.line, s6.line].map Line.str := rfl
    rw [this, hlines]
    decide +kernel
  exact ⟨[s1, s2, s3], [s5, s6], s4, h, hpl, hb ▸ cropSample_croppable, hf, hmf, hstr, rfl, by simp [hbeg, hn1, hn2, hn3],
    (hbeg s4).2 hn4⟩

example : ∃ pre b, crop ⟨some [⟨'N', .eq, 4⟩], none⟩ resumeFile = (pre ++ ["M08 (on)", "G01 X3", "F50 Y8"].map String.toList, none) ∧
    readLines newNull (pre ++ ["M08 (on)", "G01 X3", "F50 Y8"].map String.toList) = (b, none) ∧
    (b.absPos.val .X, b.absPos.val .Y, b.absPos.val .Z) = (3, 8, 4) := by
  obtain ⟨xs, ys, s, h, hpl, hc, hf, hmf, hstr, hxs, hx, hs⟩ := resume_steps
  obtain ⟨pre, h1, h2⟩ := C93_crop ⟨some [⟨'N', .eq, 4⟩], none⟩ (by
      rintro cs (hc | hc) c hcc
      · cases hc; rw [List.mem_singleton.1 hcc]; simp
      · cases hc) h hpl rfl hx hs (fun y _ => by rintro ⟨cs, hcs, -⟩; cases hcs) (by simp) hc hf (.inr hmf)
  have hlast := List.dropLast_append_getLast (List.cons_ne_nil s ys)
  have hlen : (s :: ys).dropLast.length = 2 := by
    have := congrArg List.length hstr
    simp at this ⊢
    omega
  obtain ⟨a, b, h3, h4, h5, -, -⟩ := h2 (s :: ys).dropLast ((s :: ys).getLast (List.cons_ne_nil s ys)) (by rw [hlast])
  rw [hlast, hstr] at h4
  rw [hstr] at h1
  rw [hxs, hlen] at h3
  refine ⟨pre, b, h1, h4, ?_⟩
  rw [← h5.abs, show a = (readLines newNull resumeFile).1 by
    rw [show resumeFile = resumeFile.take (3 + 2 + 1) from rfl, h3]]
  decide +kernel

example : ∃ pre b, readLines newNull (pre ++ ["M08 (on)", "G01 X3", "F50 Y8"].map String.toList) = (b, none) ∧
    NearTo (readLines newNull resumeFile).1 b := by
  obtain ⟨xs, ys, s, h, -, hc, hf, hmf, hstr, hxs, -⟩ := resume_steps
  obtain ⟨a, b, h3, h4, h5, -, -⟩ := C93_lines h rfl hc hf (.inr hmf)
  rw [hstr] at h4
  have hlen : (xs ++ s :: ys).length = 6 := by
    have := congrArg List.length hstr
    simp [hxs] at this ⊢
    omega
  rw [hlen] at h3
  refine ⟨_, b, h4, ?_⟩
  rw [show (readLines newNull resumeFile).1 = a by rw [show resumeFile = resumeFile.take 6 from rfl, h3]]
  exact h5

end Pygcode
