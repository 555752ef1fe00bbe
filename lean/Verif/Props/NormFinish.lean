import Verif.Props.NormExpand
import Verif.Props.CropPreamble

/-!
# C69: the finalizing lines of `pygcode-norm`

`--spindle_off`, `--zero_xy` and `--zero_z` add lines at the end of the program.  The theorems say what
a machine does that reads these lines after the rest of the output.
-/

namespace Pygcode
open Props Machine Spec

/-! ## Specification -/

/-- Reading the lines `ls` takes machine `b` to `b'` without an exception, and moves its position (in
the current coordinate system) from `p` to `q`. -/
def Travel (b : Machine) (ls : List (List Char)) (b' : Machine) (p q : Axis → ℚ) : Prop :=
  readLines b ls = (b', none) ∧ (∃ P, b.pos = .ok P ∧ P.val = p) ∧ ∃ Q, b'.pos = .ok Q ∧ Q.val = q

/-! ## One line -/

/-- A gcode on a line of its own, with a comment. -/
theorem put_read (o : NormOpts) (hr : o.rmGcodes = []) {b : Machine} (hb : Sound b) {g : GCode} (hg : PlainCode g)
    (c : Option Comment) (hc : CommentOK none (if o.rmComments then none else c)) :
    (∀ m, NormRes.put m (o.write [g] [] c) = ⟨o.writeOne [g] [] c none, m, .done⟩) ∧
      AlikeRes (b.process g) (readLines b (o.writeOne [g] [] c none)) := by
  have := writeOne_read o hr (Alike.refl b) hb.ok hb.named [g] [] c none
    (by simpa using (show wordClass g.word = some g.cls from hg.named))
    (by simpa using hg.gok) (List.pairwise_singleton _ _) (by simpa using hg.noWs) (by simp) (by simp) (by
      intro w hw
      simp only [List.flatMap_cons, List.flatMap_nil, List.append_nil] at hw
      exact hg.words w hw) (single_conflict g) hc (by simp) (.inl rfl)
  rw [processGcodes_sorted, execSort_single, processAll_one] at this
  refine ⟨fun m => ?_, this⟩
  unfold NormOpts.write
  rw [if_neg (by simp), if_neg (by simp)]
  rfl

theorem put_comment (o : NormOpts) (hr : o.rmGcodes = []) {b : Machine} (hb : Sound b)
    (c : Option Comment) (hc : CommentOK none (if o.rmComments then none else c)) :
    (∀ m, NormRes.put m (o.write [] [] c) = ⟨o.writeOne [] [] c none, m, .done⟩) ∧
      AlikeRes (b, none) (readLines b (o.writeOne [] [] c none)) := by
  have := writeOne_read o hr (Alike.refl b) hb.ok hb.named [] [] c none (by simp) (by simp) (by simp [Ordered]) (by simp)
    (by simp) (by simp) (by simp) (short_conflict [] (by simp)) hc (by simp) (.inl rfl)
  refine ⟨fun m => ?_, this⟩
  unfold NormOpts.write
  rw [if_neg (by simp), if_neg (by simp)]
  rfl

theorem brackets_ok (o : NormOpts) (t : List Char) (h : t.all (fun x => x != '%' && x != '\n' && x != ';' && x != ')') = true) :
    CommentOK none (if o.rmComments then none else some (.brackets t)) := by
  split_ifs
  · trivial
  · have : ∀ z ∈ ['%', '\n', ';', ')'], z ∉ t := by
      intro z hz hx
      have := List.all_eq_true.1 h z hx
      simp only [List.mem_cons, List.not_mem_nil, or_false] at hz
      rcases hz with rfl | rfl | rfl | rfl <;> simp at this
    exact ⟨this _ (by simp), this _ (by simp), this _ (by simp), this _ (by simp)⟩

theorem AlikeRes.done {r s : MRes} (h : AlikeRes r s) (hr : r.2 = none) : s = (s.1, none) ∧ Alike r.1 s.1 :=
  ⟨Prod.ext rfl (h.2.symm.trans hr), h.1⟩

/-- A mode change that leaves the coordinate system. -/
theorem withMode_state {m : Machine} (hs : Synced m) (md : Mode) (h : md 12 = m.mode 12) :
    (m.withMode md).state = m.state := by
  unfold withMode
  have : md.coordSystem = m.mode.coordSystem := h
  simp only [this]
  cases hc : m.mode.coordSystem with
  | none => rfl
  | some g => simp only [← hs g hc]

/-- A gcode without effect of its own, in another group than that of the coordinate systems. -/
theorem quiet_process {m : Machine} (hm : Sound m) {g : GCode} (hg : GOK g) (hp : g.cls.proc = .nothing) {k : ℕ}
    (hk : g.cls.group = some k) (h12 : k ≠ 12) :
    ∃ m', m.process g = (m', none) ∧ m'.pos = m.pos ∧ m'.mode = Function.update m.mode k (some (copyOf g)) ∧
      m'.axes = m.axes ∧ m'.rangeMax = m.rangeMax := by
  have hset : setIn m.mode g = Function.update m.mode k (some (copyOf g)) := by unfold setIn; rw [hk]
  refine ⟨m.withMode (setIn m.mode g), ?_, ?_, hset, rfl, rfl⟩
  · rw [process_eq m g hg]
    unfold effect
    rw [hp]
  · unfold Machine.pos abs2work coordOffset
    rw [withMode_state hm.sync _ (by rw [hset, Function.update_of_ne (Ne.symm h12)])]
    rfl

/-- A rapid move by a machine in absolute mode. -/
theorem rapid_process {m : Machine} (hm : Sound m) (hx : xyz ⊆ m.axes) (hi : m.incremental = false) (cs : List (Axis × ℚ))
    (hax : ∀ c ∈ cs, c.1 ∈ xyz) (hnd : (cs.map Prod.fst).Nodup) (hq : ∀ c ∈ cs, Shown c.2) :
    ∃ m' p q, m.process (rapidTo cs) = (m', none) ∧ m.pos = .ok p ∧ m'.pos = .ok q ∧
      (∀ a, q.val a = (Position.lookup cs a).getD (p.val a)) ∧
      (∀ k, k ≠ 1 → m'.mode k = m.mode k) ∧ m'.axes = m.axes := by
  have hpl := rapid_plain cs hax hnd hq
  have hb : ¬ m.BadSys := not_badSys hm.dict
  have hproc : (rapidTo cs).cls.proc = .motion ∨ (rapidTo cs).cls.proc = .rapid := .inr (by show Cls.rapidMove.proc = .rapid; decide)
  obtain ⟨m', p, q, h1, h2, h3, h4, h5, -, -⟩ := C31_absolute m hm.wf hb hm.sync (by
    intro d hd
    unfold incremental at hi
    rw [hd] at hi
    exact hi) (rapidTo cs) hpl.gok hproc
  have hm' : m' = _ := (congrArg Prod.fst (h1.symm.trans (process_motion m hm.wf hb hm.sync _ hpl.gok hproc)))
  refine ⟨m', p, q, h1, h2, h3, fun a => ?_, fun k hk => ?_, ?_⟩
  · cases hl : Position.lookup cs a with
    | none => exact h5 a (fun _ => by rw [rapid_num, hl])
    | some v =>
      have ha : a ∈ xyz := by
        unfold Position.lookup at hl
        obtain ⟨c, hc, rfl⟩ := Option.map_eq_some_iff.1 hl
        have := hax c (List.mem_of_find?_eq_some hc)
        have e : c.1 = a := by simpa using List.find?_some hc
        exact e ▸ this
      exact h4 a (hx ha) v (by rw [rapid_num, hl])
  · rw [hm']
    show Function.update m.mode 1 _ k = _
    rw [Function.update_of_ne hk]
  · rw [hm']; rfl

/-! ## The stages -/

/-- A reading machine at position `p`. -/
structure Stands (b : Machine) (p : Axis → ℚ) : Prop where
  sound : Sound b
  axes : xyz ⊆ b.axes
  pos : ∃ P, b.pos = .ok P ∧ P.val = p

theorem Stands.travel {b b' : Machine} {ls : List (List Char)} {p q : Axis → ℚ} (h : Stands b p) (h' : Stands b' q)
    (hr : readLines b ls = (b', none)) : Travel b ls b' p q := ⟨hr, h.pos, h'.pos⟩

theorem Alike.stands {a b : Machine} (h : Alike a b) (hb : Sound b) {p : Axis → ℚ} (hx : xyz ⊆ a.axes)
    (hp : ∃ P, a.pos = .ok P ∧ P.val = p) : Stands b p :=
  ⟨hb, h.axes ▸ hx, by rw [← h.near.pos]; exact hp⟩

/-- Nothing printed. -/
theorem stage_none {b : Machine} {p : Axis → ℚ} (h : Stands b p) : Travel b [] b p p := h.travel h rfl

/-- A slot holding an object of class `c`. -/
def Holds (b : Machine) (k : ℕ) (c : Cls) : Prop := ∃ g, b.mode k = some g ∧ g.cls = c

theorem stage_comment (o : NormOpts) (hr : o.rmGcodes = []) {b : Machine} {p : Axis → ℚ} (h : Stands b p) (t : List Char)
    (ht : t.all (fun x => x != '%' && x != '\n' && x != ';' && x != ')') = true) :
    ∃ ls b', (∀ m, NormRes.put m (o.write [] [] (some (.brackets t))) = ⟨ls, m, .done⟩) ∧ Travel b ls b' p p ∧
      Stands b' p ∧ ∀ k, Option.Rel SameGCode (b.mode k) (b'.mode k) := by
  obtain ⟨h1, h2⟩ := put_comment o hr h.sound _ (brackets_ok o t ht)
  obtain ⟨h3, h4⟩ := h2.done rfl
  have hR := h4.stands (h.sound.lines _) h.axes h.pos
  exact ⟨_, _, h1, h.travel hR h3, hR, h4.mode⟩

theorem stage_quiet (o : NormOpts) (hr : o.rmGcodes = []) {b : Machine} {p : Axis → ℚ} (h : Stands b p) {g : GCode}
    (hg : PlainCode g) (hp : g.cls.proc = .nothing) {k : ℕ} (hk : g.cls.group = some k) (h12 : k ≠ 12)
    (c : Option Comment) (hc : CommentOK none (if o.rmComments then none else c)) :
    ∃ ls b', (∀ m, NormRes.put m (o.write [g] [] c) = ⟨ls, m, .done⟩) ∧ Travel b ls b' p p ∧
      Stands b' p ∧ Holds b' k g.cls ∧ ∀ j, j ≠ k → Option.Rel SameGCode (b.mode j) (b'.mode j) := by
  obtain ⟨h1, h2⟩ := put_read o hr h.sound hg c hc
  obtain ⟨m', e1, e2, e3, e4, -⟩ := quiet_process h.sound hg.gok hp hk h12
  rw [e1] at h2
  obtain ⟨h3, h4⟩ := h2.done rfl
  have hR := h4.stands (h.sound.lines _) (p := p) (by show xyz ⊆ m'.axes; rw [e4]; exact h.axes)
    (by show ∃ P, m'.pos = .ok P ∧ P.val = p; rw [e2]; exact h.pos)
  refine ⟨_, _, h1, h.travel hR h3, hR, ?_, fun j hj => ?_⟩
  · have := h4.mode k
    simp only at this
    rw [e3, Function.update_self] at this
    generalize hx : (readLines b (o.writeOne [g] [] c none)).1.mode k = x at this
    cases this with
    | some hs => exact ⟨_, hx, hs.1.symm⟩
  · have := h4.mode j
    simp only at this
    rwa [e3, Function.update_of_ne hj] at this

theorem stage_rapid (o : NormOpts) (hr : o.rmGcodes = []) {b : Machine} {p : Axis → ℚ} (h : Stands b p)
    (hi : b.incremental = false) (cs : List (Axis × ℚ))
    (hax : ∀ c ∈ cs, c.1 ∈ xyz) (hnd : (cs.map Prod.fst).Nodup) (hq : ∀ c ∈ cs, Shown c.2)
    (c : Option Comment) (hc : CommentOK none (if o.rmComments then none else c)) :
    ∃ l b', (∀ m, NormRes.put m (o.write [rapidTo cs] [] c) = ⟨[l], m, .done⟩) ∧
      Travel b [l] b' p (fun a => (Position.lookup cs a).getD (p a)) ∧
      Stands b' (fun a => (Position.lookup cs a).getD (p a)) ∧ b'.incremental = false ∧
      ∀ j, j ≠ 1 → Option.Rel SameGCode (b.mode j) (b'.mode j) := by
  have hpl := rapid_plain cs hax hnd hq
  obtain ⟨h1, h2⟩ := put_read o hr h.sound hpl c hc
  obtain ⟨m', P, Q, e1, e2, e3, e4, e5, e6⟩ := rapid_process h.sound h.axes hi cs hax hnd hq
  rw [e1] at h2
  obtain ⟨h3, h4⟩ := h2.done rfl
  obtain ⟨P', f1, f2⟩ := h.pos
  rw [e2] at f1
  cases f1
  have hR := h4.stands (h.sound.lines _) (p := fun a => (Position.lookup cs a).getD (p a))
    (by show xyz ⊆ m'.axes; rw [e6]; exact h.axes) ⟨Q, e3, by funext a; rw [e4, f2]⟩
  have hone : o.writeOne [rapidTo cs] [] c none = [o.lineText [rapidTo cs] [] c none] := by
    unfold NormOpts.writeOne
    rw [if_neg]
    rintro ⟨h0, -⟩
    have := (nil_text o hr [rapidTo cs] [] c none (by
      intro w hw
      simp only [List.flatMap_cons, List.flatMap_nil, List.append_nil] at hw
      exact hpl.words w hw) (by simpa using hpl.noWs) h0).1
    cases this
  rw [hone] at h1 h3 h4 hR
  refine ⟨_, _, h1, h.travel hR h3, hR, ?_, fun j hj => ?_⟩
  · rw [← h4.near.incremental, ← hi]
    unfold incremental
    show (match m'.mode 3 with | some d => _ | none => _) = (match b.mode 3 with | some d => _ | none => _)
    rw [e5 3 (by decide)]
  · have := h4.mode j
    simp only at this
    rwa [e5 j hj] at this

/-! ## All of them -/

theorem g90_plain : PlainCode ⟨.absoluteDistanceMode, ⟨'G', .num 90⟩, [], false⟩ :=
  ⟨⟨List.nodup_nil, by simp⟩, (by decide +kernel : wordClass ⟨'G', .num 90⟩ = some .absoluteDistanceMode), rfl, by
    intro w hw
    simp only [List.mem_singleton] at hw
    subst hw
    exact plainB_sound (by decide +kernel), by decide⟩

theorem m5_plain : PlainCode ⟨.stopSpindle, ⟨'M', .num 5⟩, [], false⟩ :=
  ⟨⟨List.nodup_nil, by simp⟩, (by decide +kernel : wordClass ⟨'M', .num 5⟩ = some .stopSpindle), rfl, by
    intro w hw
    simp only [List.mem_singleton] at hw
    subst hw
    exact plainB_sound (by decide +kernel), by decide⟩

/-- Absolute distance modes are not incremental ones. -/
theorem absolute_table (c : Cls) (h : c.isSub .absoluteDistanceMode = true) : c.isSub .incrementalDistanceMode = false := by
  have := Cls.forall_of_all (p := fun c => !c.isSub .absoluteDistanceMode || !c.isSub .incrementalDistanceMode)
    (by decide +kernel) c
  simpa [h] using this

theorem rel_trans {x y z : Option GCode} (h : Option.Rel SameGCode x y) (h' : Option.Rel SameGCode y z) :
    Option.Rel SameGCode x z := by
  cases h with
  | none => exact h'
  | some h1 => cases h' with
    | some h2 => exact .some ⟨h1.1.trans h2.1, h1.2.1.trans h2.2.1, h1.2.2.trans h2.2.2⟩

theorem Holds.rel {b b' : Machine} {k : ℕ} {c : Cls} (h : Holds b k c) (hr : Option.Rel SameGCode (b.mode k) (b'.mode k)) :
    Holds b' k c := by
  obtain ⟨g, hg, rfl⟩ := h
  rw [hg] at hr
  generalize hx : b'.mode k = x at hr
  cases hr with
  | some hs => exact ⟨_, hx, hs.1.symm⟩

/-- **C69** The finalizing lines, whatever the options, read by a machine in the state of the script's
machine (its motion mode may differ): first lines that do not move it; then, with `--zero_xy`, one line
that only moves Z, to the safe height `h`, and one line that moves X and Y to 0 at that height; then,
with `--zero_z`, one line that moves Z to 0.  Afterwards the spindle is stopped with `--spindle_off`;
nothing else in the mode changes but the distance mode and the motion mode. -/
theorem C69_finish (o : NormOpts) (hr : o.rmGcodes = []) {m b : Machine} (hs : SameButMotion m b) (hb : Sound b)
    (hx : xyz ⊆ b.axes) {P : Position} (hP : b.pos = .ok P) (h : ℚ)
    (hh : o.zeroXY = true → o.safeHeight m = .ok h ∧ Shown h) :
    let p := P.val
    let up := if o.zeroXY then Function.update p .Z h else p
    let over := if o.zeroXY then Function.update (Function.update up .X 0) .Y 0 else p
    let down := if o.zeroZ then Function.update over .Z 0 else over
    ∃ l₀ l₁ l₂ l₃ b₀ b₁ b₂ b₃, o.finish m = ⟨l₀ ++ l₁ ++ l₂ ++ l₃, m, .done⟩ ∧
      Travel b l₀ b₀ p p ∧ Travel b₀ l₁ b₁ p up ∧ Travel b₁ l₂ b₂ up over ∧ Travel b₂ l₃ b₃ over down ∧
      l₁.length ≤ 1 ∧ l₂.length ≤ 1 ∧ l₃.length ≤ 1 ∧
      (o.spindleOff = true → Holds b₃ 107 .stopSpindle) ∧
      (o.spindleOff = false → Option.Rel SameGCode (b.mode 107) (b₃.mode 107)) ∧
      (∀ k, k ≠ 1 → k ≠ 3 → k ≠ 107 → Option.Rel SameGCode (b.mode k) (b₃.mode k)) ∧
      ((o.zeroXY || o.zeroZ) = true → b₃.incremental = false) := by
  intro p up over down
  have hR : Stands b p := ⟨hb, hx, P, hP, rfl⟩
  -- the comment
  obtain ⟨lc, bc, hc1, hc2, hc3, hc4⟩ : ∃ ls b', o.finishComment m = ⟨ls, m, .done⟩ ∧ Travel b ls b' p p ∧
      Stands b' p ∧ ∀ k, Option.Rel SameGCode (b.mode k) (b'.mode k) := by
    unfold NormOpts.finishComment
    split_ifs with h0
    · obtain ⟨ls, b', k1, k2⟩ := stage_comment o hr hR "pygcode-norm: finalizing".toList (by decide)
      exact ⟨ls, b', k1 m, k2⟩
    · exact ⟨[], b, rfl, stage_none hR, hR, fun k => rel_refl _⟩
  -- the distance mode
  obtain ⟨la, ba, ha1, ha2, ha3, ha4, ha5⟩ : ∃ ls b', o.finishAbsolute m = ⟨ls, m, .done⟩ ∧ Travel bc ls b' p p ∧
      Stands b' p ∧ (∀ k, k ≠ 3 → Option.Rel SameGCode (bc.mode k) (b'.mode k)) ∧
      ((o.zeroXY || o.zeroZ) = true → b'.incremental = false) := by
    unfold NormOpts.finishAbsolute
    split_ifs with h0
    · obtain ⟨ls, b', k1, k2, k3, ⟨g, k4, k5⟩, k6⟩ := stage_quiet o hr hc3 g90_plain (by decide) (k := 3) (by decide) (by decide)
        none (by split_ifs <;> trivial)
      refine ⟨ls, b', k1 m, k2, k3, k6, fun _ => ?_⟩
      unfold incremental
      have : b'.mode.distance = some g := k4
      rw [this]
      simp only [k5]
      decide
    · refine ⟨[], bc, rfl, stage_none hc3, hc3, fun k _ => rel_refl _, fun hz => ?_⟩
      rw [hz, Bool.true_and] at h0
      have hrel := rel_trans (hs.2.2.2.2 3 (by decide)) (hc4 3)
      have hd : ∃ d, m.mode 3 = some d ∧ d.cls.isSub .absoluteDistanceMode = true := by
        change ¬ (!(match m.mode 3 with | some d => d.cls.isSub .absoluteDistanceMode | none => false)) = true at h0
        cases hm3 : m.mode 3 with
        | none => rw [hm3] at h0; simp at h0
        | some d => rw [hm3] at h0; exact ⟨d, rfl, by simpa using h0⟩
      obtain ⟨d, hd1, hd2⟩ := hd
      rw [hd1] at hrel
      unfold incremental
      change (match bc.mode 3 with | some d => d.cls.isSub .incrementalDistanceMode | none => false) = false
      generalize bc.mode 3 = x at hrel
      cases hrel with
      | some hsm => simp only [← hsm.1]; exact absolute_table _ hd2
  -- the spindle
  obtain ⟨ls, bs, hs1, hs2, hs3, hs4, hs5, hs6⟩ : ∃ ls b', o.finishSpindle m = ⟨ls, m, .done⟩ ∧ Travel ba ls b' p p ∧
      Stands b' p ∧ (∀ k, k ≠ 107 → Option.Rel SameGCode (ba.mode k) (b'.mode k)) ∧
      (o.spindleOff = true → Holds b' 107 .stopSpindle) ∧
      (o.spindleOff = false → Option.Rel SameGCode (ba.mode 107) (b'.mode 107)) := by
    unfold NormOpts.finishSpindle
    split_ifs with h0
    · obtain ⟨ls, b', k1, k2, k3, k4, k5⟩ := stage_quiet o hr ha3 m5_plain (by decide) (k := 107) (by decide) (by decide)
        (some (.brackets "spindle off".toList)) (brackets_ok o _ (by decide))
      exact ⟨ls, b', k1 m, k2, k3, k5, fun _ => k4, fun hf => by rw [h0] at hf; cases hf⟩
    · exact ⟨[], ba, rfl, stage_none ha3, ha3, fun k _ => rel_refl _, fun hf => absurd hf h0, fun _ => rel_refl _⟩
  have hsi : (o.zeroXY || o.zeroZ) = true → bs.incremental = false := by
    intro hz
    rw [← ha5 hz]
    have hrel := hs4 3 (by decide)
    unfold incremental
    change (match bs.mode 3 with | some d => _ | none => _) = (match ba.mode 3 with | some d => _ | none => _)
    generalize ba.mode 3 = x at hrel
    generalize bs.mode 3 = y at hrel
    cases hrel with
    | none => rfl
    | some hsm => simp only [← hsm.1]
  -- the moves
  obtain ⟨l₁, l₂, b₁, b₂, hx1, hx2, hx3, hx4, hx5, hx6, hx7, hx8⟩ : ∃ l₁ l₂ b₁ b₂, o.finishXY m = ⟨l₁ ++ l₂, m, .done⟩ ∧
      Travel bs l₁ b₁ p up ∧ Travel b₁ l₂ b₂ up over ∧ Stands b₂ over ∧ l₁.length ≤ 1 ∧ l₂.length ≤ 1 ∧
      (∀ k, k ≠ 1 → Option.Rel SameGCode (bs.mode k) (b₂.mode k)) ∧
      ((o.zeroXY || o.zeroZ) = true → b₂.incremental = false) := by
    unfold NormOpts.finishXY
    by_cases h0 : o.zeroXY = true
    · rw [if_pos h0]
      obtain ⟨e1, e2⟩ := hh h0
      have hi := hsi (by rw [h0]; rfl)
      obtain ⟨l₁, b₁, k1, k2, k3, k4, k5⟩ := stage_rapid o hr hs3 hi [(.Z, h)] (by simp; decide) (by simp)
        (by simpa using e2) (some (.brackets "move to safe height".toList)) (brackets_ok o _ (by decide))
      have z0 : Shown 0 := ⟨0, 0, by omega, by simp, by simp⟩
      have eup : (fun a => (Position.lookup [(Axis.Z, h)] a).getD (p a)) = up := by
        funext a
        simp only [up, h0, if_true]
        cases a <;> simp [Position.lookup, Function.update]
      rw [eup] at k2 k3
      obtain ⟨l₂, b₂, q1, q2, q3, q4, q5⟩ := stage_rapid o hr k3 k4 [(.X, 0), (.Y, 0)] (by simp; decide) (by simp)
        (by simpa using z0) (some (.brackets "move to planar origin".toList)) (brackets_ok o _ (by decide))
      have eover : (fun a => (Position.lookup [(Axis.X, (0 : ℚ)), (.Y, 0)] a).getD (up a)) = over := by
        funext a
        simp only [over, h0, if_true]
        cases a <;> simp [Position.lookup, Function.update]
      rw [eover] at q2 q3
      refine ⟨[l₁], [l₂], b₁, b₂, ?_, k2, q2, q3, by simp, by simp, fun k hk => rel_trans (k5 k hk) (q5 k hk), fun _ => q4⟩
      simp only [e1, k1, q1, NormRes.andThen]
    · rw [if_neg h0]
      have eup : up = p := by simp only [up, if_neg h0]
      have eover : over = p := by simp only [over, if_neg h0]
      rw [eup, eover]
      exact ⟨[], [], bs, bs, rfl, stage_none hs3, stage_none hs3, hs3, by simp, by simp, fun k _ => rel_refl _, hsi⟩
  obtain ⟨l₃, b₃, hz1, hz2, hz3, hz4, hz5⟩ : ∃ l₃ b₃, o.finishZ m = ⟨l₃, m, .done⟩ ∧
      Travel b₂ l₃ b₃ over down ∧ l₃.length ≤ 1 ∧
      (∀ k, k ≠ 1 → Option.Rel SameGCode (b₂.mode k) (b₃.mode k)) ∧
      ((o.zeroXY || o.zeroZ) = true → b₃.incremental = false) := by
    unfold NormOpts.finishZ
    by_cases h0 : o.zeroZ = true
    · rw [if_pos h0]
      have z0 : Shown 0 := ⟨0, 0, by omega, by simp, by simp⟩
      obtain ⟨l₁, b₁, k1, k2, k3, k4, k5⟩ := stage_rapid o hr hx4 (hx8 (by rw [h0, Bool.or_true])) [(.Z, 0)] (by simp; decide) (by simp)
        (by simpa using z0) (some (.brackets "move to zero height".toList)) (brackets_ok o _ (by decide))
      have edown : (fun a => (Position.lookup [(Axis.Z, (0 : ℚ))] a).getD (over a)) = down := by
        funext a
        simp only [down, h0, if_true]
        cases a <;> simp [Position.lookup, Function.update]
      rw [edown] at k2 k3
      exact ⟨[l₁], b₁, k1 m, k2, by simp, k5, fun _ => k4⟩
    · rw [if_neg h0]
      have edown : down = over := by simp only [down, if_neg h0]
      rw [edown]
      exact ⟨[], b₂, rfl, stage_none hx4, by simp, fun k _ => rel_refl _, hx8⟩
  have hread : readLines b (lc ++ la ++ ls) = (bs, none) := by
    rw [readLines_append, readLines_append, hc2.1]
    simp only [andThen]
    rw [ha2.1]
    simp only
    rw [hs2.1]
  refine ⟨lc ++ la ++ ls, l₁, l₂, l₃, bs, b₁, b₂, b₃, ?_, hR.travel hs3 hread, hx2, hx3, hz2, hx5, hx6, hz3, fun h0 => ?_,
    fun h0 => ?_, fun k k1 k3 k7 => ?_, hz5⟩
  · unfold NormOpts.finish
    rw [hc1]
    simp only [NormRes.andThen, ha1, hs1, hx1, hz1, List.append_assoc]
  · exact ((hs5 h0).rel (hx7 107 (by decide))).rel (hz4 107 (by decide))
  · exact rel_trans (rel_trans (rel_trans (rel_trans (hc4 107) (ha4 107 (by decide))) (hs6 h0)) (hx7 107 (by decide))) (hz4 107 (by decide))
  · exact rel_trans (rel_trans (rel_trans (rel_trans (hc4 k) (ha4 k k3)) (hs4 k k7)) (hx7 k k1)) (hz4 k k1)

/-! ## The safe height -/

theorem abs2work_sup (m : Machine) (hm : m.WF) (h : ¬ m.BadSys) (p : Position) (hp : m.axes ⊆ p.axes) :
    m.abs2work p = .ok ⟨p.axes, p.unit, fun a => p.val a - m.sysOff a - m.state.offset.val a⟩ := by
  obtain ⟨o, ho, ha, -, hv⟩ := coordOffset_ok m hm h
  unfold abs2work
  rw [ho]
  simp only [Position.sub, ha, hp, if_true, hm.off, hv]

theorem path_axes {m m' : Machine} {ps : List Position} (h : Machine.Path m ps m') : ∀ p ∈ ps, p.axes = m.axes := by
  induction h with
  | done => simp
  | step m m' m₁ v ps hf _ _ _ _ _ _ ih =>
    intro p hp
    rcases List.mem_cons.1 hp with rfl | hp
    · exact hf.axes
    · exact (ih p hp).trans hf.axes

theorem readLines_calls {m m' : Machine} {ts : List (List Char)} (h : readLines m ts = (m', none)) :
    Call.runAll m (ts.map .str) = m' := by
  induction ts generalizing m with
  | nil => exact congrArg Prod.fst h
  | cons t ts ih =>
    unfold readLines andThen at h
    rw [List.map_cons, Call.runAll]
    show Call.runAll (m.processStr t).1 _ = m'
    rcases hp : m.processStr t with ⟨m₁, _ | e⟩
    · rw [hp] at h; exact ih h
    · rw [hp] at h; cases h

/-- **C69** Without `--rapid_safety_height`, the safe height is the greatest Z coordinate (in the
coordinate system at the end) of any position of the program, in particular not below the last one. -/
theorem C69_height (o : NormOpts) (hsf : o.safety = none) (md : Mode) (ts : List (List Char)) (m : Machine)
    (hts : readLines (o.machine md) ts = (m, none)) :
    ∃ h p, o.safeHeight m = .ok h ∧ m.pos = .ok p ∧ p.val .Z ≤ h ∧
      IsGreatest {x | ∃ q ∈ (o.machine md).absPos :: Call.visitedAll (o.machine md) (ts.map .str),
        ∃ w, m.abs2work q = .ok w ∧ x = w.val .Z} h := by
  have hwf₀ : (o.machine md).WF := by
    obtain ⟨h1, h2, h3, h4, h5, h6, h7⟩ := newWith_wf xyz md
    exact ⟨h1, h2, h3, h4, h5, h6, h7⟩
  have hp := path_calls (ts.map .str) (o.machine md) hwf₀ (by
    intro c hc
    obtain ⟨t, -, rfl⟩ := List.mem_map.1 hc
    trivial)
  rw [readLines_calls hts] at hp
  have hwf := hp.wf hwf₀
  have hax : m.axes = xyz := hp.frame.axes
  have hb : ¬ m.BadSys := not_badSys ⟨_, hp.frame.systems⟩
  have hZ : Axis.Z ∈ (o.machine md).axes := by show Axis.Z ∈ xyz; decide
  have hhi := path_high hp .Z hZ
  have hmem : m.absPos ∈ (o.machine md).absPos :: Call.visitedAll (o.machine md) (ts.map .str) := by
    rw [path_last hp]
    exact List.getLast_mem _
  have hset : ∀ x, (x = (o.machine md).rangeMax.val .Z ∨
      ∃ p ∈ Call.visitedAll (o.machine md) (ts.map .str), x = p.val .Z) ↔
      ∃ q ∈ (o.machine md).absPos :: Call.visitedAll (o.machine md) (ts.map .str), x = q.val .Z := by
    intro x
    simp only [List.mem_cons, exists_eq_or_imp]
    rfl
  have haxs : ∀ q ∈ (o.machine md).absPos :: Call.visitedAll (o.machine md) (ts.map .str), q.axes = xyz := by
    intro q hq
    rcases List.mem_cons.1 hq with rfl | hq
    · rfl
    · exact path_axes hp q hq
  have hw : ∀ q ∈ (o.machine md).absPos :: Call.visitedAll (o.machine md) (ts.map .str), m.abs2work q = .ok _ :=
    fun q hq => abs2work_ok m hwf hb q ((haxs q hq).trans hax.symm)
  refine ⟨m.rangeMax.val .Z - m.sysOff .Z - m.state.offset.val .Z, _, ?_, pos_ok m hwf hb, ?_, ?_, ?_⟩
  · unfold NormOpts.safeHeight
    rw [hsf, abs2work_sup m hwf hb _ hwf.hi]
    have : Axis.Z ∈ m.rangeMax.axes := hwf.hi (by rw [hax]; decide)
    simp only [Position.get, this, if_true]
  · have := hhi.2 ((hset _).2 ⟨_, hmem, rfl⟩)
    simp only
    linarith
  · obtain ⟨q, hq, e⟩ := (hset _).1 hhi.1
    exact ⟨q, hq, _, hw q hq, by rw [e]⟩
  · rintro x ⟨q, hq, w, h1, rfl⟩
    rw [hw q hq] at h1
    cases h1
    have := hhi.2 ((hset _).2 ⟨q, hq, rfl⟩)
    simp only
    linarith

theorem safeHeight_ok (o : NormOpts) {m : Machine} (hm : Sound m) (hx : xyz ⊆ m.axes) : ∃ h, o.safeHeight m = .ok h := by
  unfold NormOpts.safeHeight
  cases o.safety with
  | some h => exact ⟨h, rfl⟩
  | none =>
    rw [abs2work_sup m hm.wf (not_badSys hm.dict) _ hm.wf.hi]
    have : Axis.Z ∈ m.rangeMax.axes := hm.wf.hi (hx (by decide))
    simp only [Position.get, this, if_true]
    exact ⟨_, rfl⟩

/-! ## The whole run -/

/-- **C69** The whole output of the script, read by a machine like the script's own at the start:
X and Y end at 0 with `--zero_xy`, Z at 0 with `--zero_z` and otherwise at the safe height, and
coordinates that are not asked for end where the program leaves them; the spindle is stopped with
`--spindle_off`. -/
theorem C69_run (o : NormOpts) (hr : o.rmGcodes = []) (hi : o.rmInvalid = false) (fuel : ℕ) (md : Mode)
    (hm₀ : Sound (o.machine md)) (ts : List (List Char)) (m : Machine) (hts : readLines (o.machine md) ts = (m, none))
    (hbody : (o.cannedExpand = false ∧ LinesTidy o (o.machine md) ts) ∨
      (o.cannedExpand = true ∧ LinesExpand o fuel (o.machine md) ts ∧ (o.loop fuel (o.machine md) ts).status = .done))
    (hsafe : o.zeroXY = true → ∀ h, o.safeHeight m = .ok h → Shown h) :
    (o.run fuel md ts).status = .done ∧
    ∃ b p q, readLines (o.machine md) (o.run fuel md ts).out = (b, none) ∧ m.pos = .ok p ∧ b.pos = .ok q ∧
      (o.zeroXY = true → q.val .X = 0 ∧ q.val .Y = 0 ∧ (o.zeroZ = false → o.safeHeight m = .ok (q.val .Z))) ∧
      (o.zeroZ = true → q.val .Z = 0) ∧
      (o.zeroXY = false → q.val .X = p.val .X ∧ q.val .Y = p.val .Y ∧ (o.zeroZ = false → q.val .Z = p.val .Z)) ∧
      (∀ a, a ∉ xyz → q.val a = p.val a) ∧
      (o.spindleOff = true → Holds b 107 .stopSpindle) := by
  have hm : Sound m := by have := hm₀.lines ts; rwa [hts] at this
  have hax : m.axes = xyz := by
    have hp := path_calls (ts.map .str) (o.machine md) hm₀.wf (by
      intro c hc
      obtain ⟨t, -, rfl⟩ := List.mem_map.1 hc
      trivial)
    rw [readLines_calls hts] at hp
    exact hp.frame.axes
  obtain ⟨ls, b, hl, hb1, hb2⟩ : ∃ ls b, o.loop fuel (o.machine md) ts = ⟨ls, m, .done⟩ ∧
      readLines (o.machine md) ls = (b, none) ∧ SameButMotion m b := by
    rcases hbody with ⟨he, htd⟩ | ⟨he, htd, hd⟩
    · obtain ⟨ls, b, h1, h2, h3⟩ := C66_same_partial o hr he hi fuel _ hm₀.wf hm₀.ok hm₀.named ts m hts htd
      exact ⟨ls, b, h1, h2, h3.near.pos, h3.abs, h3.state, h3.axes, fun k _ => h3.mode k⟩
    · obtain ⟨h1, b, h2, h3⟩ := C67_same_partial o hr hi he fuel (o.machine md) hm₀ hi (Finset.Subset.refl _) ts htd hd
      have e : (o.loop fuel (o.machine md) ts).m = m := congrArg Prod.fst (h1.symm.trans hts)
      rw [e] at h3
      refine ⟨(o.loop fuel (o.machine md) ts).out, b, ?_, h2, h3⟩
      generalize o.loop fuel (o.machine md) ts = r at hd e
      obtain ⟨x, y, z⟩ := r
      cases hd; cases e; rfl
  have hb : Sound b := by have := hm₀.lines ls; rwa [hb1] at this
  obtain ⟨h, hh⟩ := safeHeight_ok o hm (by rw [hax])
  have hbx : xyz ⊆ b.axes := by rw [← hb2.2.2.2.1, hax]
  have hP := pos_ok b hb.wf (not_badSys hb.dict)
  obtain ⟨l₀, l₁, l₂, l₃, b₀, b₁, b₂, b₃, f1, f2, f3, f4, f5, -, -, -, f6, -⟩ :=
    C69_finish o hr hb2 hb hbx hP h (fun hz => ⟨hh, hsafe hz h hh⟩)
  have hrun : o.run fuel md ts = ⟨ls ++ (l₀ ++ l₁ ++ l₂ ++ l₃), m, .done⟩ := by
    unfold NormOpts.run
    rw [hl]
    simp only [NormRes.andThen, f1]
  rw [hrun]
  obtain ⟨q, hq, hqv⟩ := f5.2.2
  refine ⟨rfl, b₃, _, q, ?_, hb2.1.trans hP, hq, ?_, ?_, ?_, ?_, f6⟩
  · simp only [readLines_append, hb1, andThen, f2.1, f3.1, f4.1, f5.1]
  · intro hz
    rw [hqv]
    refine ⟨?_, ?_, ?_⟩
    · cases h0 : o.zeroZ <;> simp [hz, Function.update]
    · cases h0 : o.zeroZ <;> simp [hz, Function.update]
    · intro h0
      rw [hh]; simp [hz, h0, Function.update]
  · intro hz
    rw [hqv]; simp [hz]
  · intro hz
    rw [hqv]
    refine ⟨?_, ?_, ?_⟩
    · cases h0 : o.zeroZ <;> simp [hz, Function.update]
    · cases h0 : o.zeroZ <;> simp [hz, Function.update]
    · intro h0; simp [hz, h0]
  · intro a ha
    rw [hqv]
    have : a ≠ .X ∧ a ≠ .Y ∧ a ≠ .Z := by
      refine ⟨?_, ?_, ?_⟩ <;> rintro rfl <;> exact ha (by decide)
    cases h0 : o.zeroZ <;> cases h1 : o.zeroXY <;> simp [Function.update, this]

/-- **C69** (no option): without `--zero_xy`, `--zero_z` and `--spindle_off` nothing is added. -/
theorem C69_none (o : NormOpts) (h1 : o.zeroXY = false) (h2 : o.zeroZ = false) (h3 : o.spindleOff = false) (m : Machine) :
    o.finish m = ⟨[], m, .done⟩ := by
  simp [NormOpts.finish, NormOpts.finishComment, NormOpts.finishAbsolute, NormOpts.finishSpindle, NormOpts.finishXY,
    NormOpts.finishZ, NormRes.andThen, h1, h2, h3]

/-- **C69** (comment): with one of the options, and comments kept, the added lines begin with a comment that
announces them, whatever happens afterwards. -/
theorem C69_comment (o : NormOpts) (h : o.zeroXY = true ∨ o.zeroZ = true ∨ o.spindleOff = true)
    (hc : o.rmComments = false) (m : Machine) :
    (o.finish m).out.head? = some "(pygcode-norm: finalizing)".toList := by
  have h1 : o.finishComment m = ⟨["(pygcode-norm: finalizing)".toList], m, .done⟩ := by
    have hw : o.write [] [] (some (.brackets "pygcode-norm: finalizing".toList)) =
        .ok ["(pygcode-norm: finalizing)".toList] := by
      have ht : o.lineText [] [] (some (.brackets "pygcode-norm: finalizing".toList)) none =
          "(pygcode-norm: finalizing)".toList := by
        unfold NormOpts.lineText
        simp only [hc, List.filter_nil, List.map_nil, ite_self, Bool.false_eq_true, if_false, List.append_nil]
        cases o.rmWhitespace <;> decide +kernel
      have hne : ¬ ("(pygcode-norm: finalizing)".toList = [] ∧ o.rmBlanks = true) := fun h => absurd h.1 (by decide)
      unfold NormOpts.write NormOpts.writeOne
      rw [if_neg (fun h => h.2 rfl), if_neg (fun h => absurd h.2 (by decide)), ht, if_neg hne]
    unfold NormOpts.finishComment
    rw [if_pos (by rcases h with h | h | h <;> simp [h]), hw]
    rfl
  have hd : ∀ (r : NormRes) (f : Machine → NormRes) (l : List Char), r.out.head? = some l →
      (r.andThen f).out.head? = some l := by
    intro r f l hl
    unfold NormRes.andThen
    cases r.status <;> simp [hl]
  unfold NormOpts.finish
  rw [h1]
  exact hd _ _ _ (hd _ _ _ (hd _ _ _ (hd _ _ _ rfl)))

/-! ## Cases -/

/-- Only `--spindle_off`. -/
example : (({ spindleOff := true } : NormOpts).finish sampleMachine).out.map String.ofList =
    ["(pygcode-norm: finalizing)", "M05 (spindle off)"] ∧
    (({ spindleOff := true } : NormOpts).finish sampleMachine).out.head? = some "(pygcode-norm: finalizing)".toList :=
  ⟨by decide +kernel, C69_comment _ (.inr (.inr rfl)) rfl _⟩

/-- No option. -/
example : (({} : NormOpts).finish sampleMachine).out = [] := by rw [C69_none _ rfl rfl rfl]

/-- A program that ends in incremental mode, below its highest point, with an offset free machine. -/
def finishSample : List (List Char) := ["G17 G90 G21 M3", "G0 X1 Y1 Z5", "G1 Z-1 F100", "G91 X2 Y-3.5"].map String.toList

/-- All finalizing options. -/
def finishOpts : NormOpts := { zeroXY := true, zeroZ := true, spindleOff := true, rmComments := true, rmBlanks := true }

example : (finishOpts.run 0 Mode.null finishSample).out.map String.ofList =
    ["G17 G90 G21 M03", "G00 X1 Y1 Z5", "G01 Z-1 F100", "G91 X2 Y-3.5", "G90", "M05", "G00 Z5", "G00 X0 Y0", "G00 Z0"] := by
  decide +kernel

/-- The theorem applies to it, with the height 5. -/
example : ∃ b q, readLines (finishOpts.machine Mode.null) (finishOpts.run 0 Mode.null finishSample).out = (b, none) ∧
    b.pos = .ok q ∧ q.val .X = 0 ∧ q.val .Y = 0 ∧ q.val .Z = 0 ∧ Holds b 107 .stopSpindle := by
  have hts : readLines (finishOpts.machine Mode.null) finishSample =
      ((readLines (finishOpts.machine Mode.null) finishSample).1, none) :=
    Prod.ext rfl (by decide +kernel)
  obtain ⟨-, b, p, q, h1, -, h2, h3, h4, -, -, h5⟩ := C69_run finishOpts rfl rfl 0 Mode.null (reader_null xyz).sound
    finishSample _ hts (.inl ⟨rfl, linesTidyB_sound _ (by decide +kernel)⟩) (by
      intro _ h hh
      have : finishOpts.safeHeight (readLines (finishOpts.machine Mode.null) finishSample).1 = .ok 5 := by decide +kernel
      rw [this] at hh
      cases hh
      exact ⟨5, 0, by omega, by simp, by simp⟩)
  exact ⟨b, q, h1, h2, (h3 rfl).1, (h3 rfl).2.1, h4 rfl, h5 rfl⟩

/-- **C69** fails with `--rm_gcodes` for a gcode of the finalizing lines: they are removed as well. -/
theorem C69_removed_refuted :
    (({ zeroXY := true, rmGcodes := [⟨'G', .num 0⟩] } : NormOpts).run 0 Mode.null
      (["G90 G1 X3 F100"].map String.toList)).out.map String.ofList =
      ["G90 G01 X3 F100", "(pygcode-norm: finalizing)", "(move to safe height)", "(move to planar origin)"] := by
  decide +kernel

/-- **C69**, disagreement: the finalizing lines come after an M2 or M30 of the program, where a
controller does not execute them. -/
theorem C69_after_end_refuted :
    (finishOpts.run 0 Mode.null (["G90 G1 X3 F100", "M30"].map String.toList)).out.map String.ofList =
      ["G90 G01 X3 F100", "M30", "M05", "G00 Z0", "G00 X0 Y0", "G00 Z0"] := by
  decide +kernel

end Pygcode
