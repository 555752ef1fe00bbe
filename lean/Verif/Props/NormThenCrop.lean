import Verif.Props.CropPieces

/-!
# C97: cropping a program normalized with `--full`

Every line that `pygcode-norm --full` prints names its motion gcode, so it does the same whatever the motion mode is, and
the output can be cropped anywhere.
-/

namespace Pygcode
open Props Machine Spec

/-- **C97** (lines): every line printed with `--full` for tidy lines has no left-over words, and is printed again without a
change of its meaning. -/
theorem C97_alone (o : NormOpts) (hf : o.full = true) (hr : o.rmGcodes = []) (he : o.cannedExpand = false) (hi : o.rmInvalid = false)
    (fuel : ℕ) (m : Machine) (hwf : m.WF) (hok : ModeOK m.mode) (hn : ModeAll Named m.mode)
    (ts : List (List Char)) (a : Machine) (hts : readLines m ts = (a, none)) (htd : LinesTidy o m ts) :
    (o.loop fuel m ts).status = .done ∧
      ∀ t ∈ (o.loop fuel m ts).out, ∃ l, Line.ofText t = .ok l ∧ l.block.modalParams = [] ∧ Faithful l := by
  obtain ⟨ls, b, h1, h2, -⟩ := C66_same_partial o hr he hi fuel m hwf hok hn ts a hts htd
  have hfix := loop_fixed o hr he hi fuel m hwf hok hn ts a hts htd ls h1
  rw [h1]
  refine ⟨rfl, fun t ht => ?_⟩
  obtain ⟨l, k1, -, k2, k3, k4, k5⟩ := hfix t ht
  exact ⟨l, k1, (k2 hf).1, k3, k4, k5⟩

/-- Lines without left-over words, read by machines that differ at most in their motion mode. -/
theorem alone_near {ls : List (List Char)} (hls : ∀ t ∈ ls, ∃ l, Line.ofText t = .ok l ∧ l.block.modalParams = []) :
    ∀ {a b a' : Machine}, NearTo a b → Sound a → Sound b → readLines a ls = (a', none) →
      ∃ b', readLines b ls = (b', none) ∧ NearTo a' b' ∧
        (Option.Rel SameGCode (a.mode 1) (b.mode 1) ∨ (∃ t ∈ ls, ∃ l, Line.ofText t = .ok l ∧ SetsMotion l) →
          Option.Rel SameGCode (a'.mode 1) (b'.mode 1)) := by
  induction ls with
  | nil =>
    intro a b a' h _ _ hp
    cases hp
    exact ⟨b, rfl, h, fun h => by simpa using h⟩
  | cons t ls ih =>
    intro a b a' h ha hb hp
    obtain ⟨l, hl, hm⟩ := hls t List.mem_cons_self
    have hbl := line_block_ok hl
    unfold readLines andThen at hp ⊢
    rcases hpa : a.processStr t with ⟨a₁, _ | e⟩
    · rw [hpa] at hp
      simp only at hp
      obtain ⟨b₁, r1, r2, r3⟩ : ∃ b₁, b.processStr t = (b₁, none) ∧ NearTo a₁ b₁ ∧
          (Option.Rel SameGCode (a.mode 1) (b.mode 1) ∨ SetsMotion l → Option.Rel SameGCode (a₁.mode 1) (b₁.mode 1)) := by
        unfold processStr at hpa ⊢
        rw [hl] at hpa ⊢
        simp only at hpa ⊢
        unfold processBlock processGcodes at hpa ⊢
        rw [hm] at hpa ⊢
        have e0 : ∀ m : Machine, m.modalGcode [] = .ok none := fun m => rfl
        rw [e0] at hpa ⊢
        simp only [Option.toList_none, List.append_nil] at hpa ⊢
        have hsame : List.Forall₂ SameGCode l.block.gcodes l.block.gcodes :=
          List.forall₂_same.2 (fun g _ => ⟨rfl, rfl, .refl _⟩)
        obtain ⟨b', h1, h2, h3⟩ := processAll_regain (execSort_same hsame)
          (fun g hg => hbl.ok g ((execSort_stable _).1.mem_iff.1 hg)) h ha.wf hb.wf hpa
        refine ⟨b', h1, h2, fun hs => h3 (hs.imp_right ?_)⟩
        rintro ⟨g, hg, ht⟩
        exact ⟨g, (execSort_stable _).1.mem_iff.2 hg, table_motion (hbl.cls g hg) ht⟩
      have sa := ha.str t
      have sb := hb.str t
      rw [hpa] at sa
      rw [r1] at sb ⊢
      obtain ⟨b', k1, k2, k3⟩ := ih (fun t ht => hls t (List.mem_cons_of_mem _ ht)) r2 sa sb hp
      refine ⟨b', k1, k2, fun hx => k3 ?_⟩
      rcases hx with hx | ⟨x, hx, l', hl', hset⟩
      · exact .inl (r3 (.inl hx))
      · rcases List.mem_cons.1 hx with rfl | hx
        · rw [hl] at hl'; cases hl'
          exact .inl (r3 (.inr hset))
        · exact .inr ⟨x, hx, l', hl', hset⟩
    · rw [hpa] at hp; cases hp

/-- **C97** (motion mode): machines that differ at most in their motion mode do the same with what is printed with `--full`;
afterwards the motion modes are the same if one of the lines sets it. -/
theorem C97_motion (o : NormOpts) (hf : o.full = true) (hr : o.rmGcodes = []) (he : o.cannedExpand = false) (hi : o.rmInvalid = false)
    (fuel : ℕ) (m : Machine) (hm : Sound m) (ts : List (List Char)) (a : Machine) (hts : readLines m ts = (a, none))
    (htd : LinesTidy o m ts) (b : Machine) (hb : Sound b) (hmb : NearTo m b) :
    ∃ b', readLines b (o.loop fuel m ts).out = (b', none) ∧ NearTo a b' ∧
      ((∃ t ∈ (o.loop fuel m ts).out, ∃ l, Line.ofText t = .ok l ∧ SetsMotion l) → Option.Rel SameGCode (a.mode 1) (b'.mode 1)) := by
  obtain ⟨-, hal⟩ := C97_alone o hf hr he hi fuel m hm.wf hm.ok hm.named ts a hts htd
  obtain ⟨ls, c, h1, h2, h3⟩ := C66_same_partial o hr he hi fuel m hm.wf hm.ok hm.named ts a hts htd
  rw [h1] at hal ⊢
  obtain ⟨b', k1, k2, k3⟩ := alone_near (fun t ht => by
    obtain ⟨l, q1, q2, -⟩ := hal t ht
    exact ⟨l, q1, q2⟩) hmb hm hb h2
  exact ⟨b', k1, h3.near.trans k2, fun hx => rel_trans (h3.mode 1) (k3 (.inr hx))⟩

/-! ## Cropping -/

theorem trace_of_lines {ts : List (List Char)} : ∀ {i : ℕ} {m a : Machine}, FromNull m → readLines m ts = (a, none) →
    ∃ ss, CropTrace i m ts ss := by
  induction ts with
  | nil => exact fun _ _ => ⟨[], .nil _ _⟩
  | cons t ts ih =>
    intro i m a hm h
    unfold readLines andThen at h
    have hm1 := hm.str t
    rcases hp : m.processStr t with ⟨m', _ | e⟩
    · rw [hp] at h hm1
      simp only at h hm1
      obtain ⟨ss, hss⟩ := ih (i := i + 1) hm1 h
      unfold processStr at hp
      cases hl : Line.ofText t with
      | error e => rw [hl] at hp; cases hp
      | ok l =>
        rw [hl] at hp
        have hb : ¬ m'.BadSys := by
          rintro ⟨h1, -⟩
          obtain ⟨f, hf⟩ := hm1.sound.dict
          rw [hf] at h1; cases h1
        exact ⟨_, .cons hl hp (pos_ok m' hm1.sound.wf hb) hss⟩
    · rw [hp] at h; cases h

theorem motionFirst_of {ls : List Line} (h : ∀ l ∈ ls, l.block.modalParams = []) : MotionFirst ls := by
  induction ls with
  | nil => trivial
  | cons l ls ih => exact ⟨h l (by simp), .inr (ih (fun x hx => h x (by simp [hx])))⟩

theorem trace_line_mem {i : ℕ} {m : Machine} {ts : List (List Char)} {ss : List CropStep} (h : CropTrace i m ts ss) :
    ∀ s ∈ ss, ∃ t ∈ ts, Line.ofText t = .ok s.line := by
  induction h with
  | nil => simp
  | cons h1 _ _ _ ih =>
    intro s hs
    rcases List.mem_cons.1 hs with rfl | hs
    · exact ⟨_, List.mem_cons_self, h1⟩
    · obtain ⟨t, ht, hl⟩ := ih s hs
      exact ⟨t, List.mem_cons_of_mem _ ht, hl⟩

/-- **C97** (crop): what `pygcode-norm --full` prints for a program can be executed, and whatever part of it is cropped, the
cropped file is accepted by a new machine and leads it line by line where the whole file does.  There is no condition on the
motion mode, unlike in C93; a range that is open at the end leads to where the original program leads. -/
theorem C97_crop (o : NormOpts) (hf : o.full = true) (hr : o.rmGcodes = []) (he : o.cannedExpand = false) (hi : o.rmInvalid = false)
    (fuel : ℕ) (ts : List (List Char)) (a : Machine) (hts : readLines newNull ts = (a, none)) (htd : LinesTidy o newNull ts) :
    ∃ ss, CropTrace 0 newNull (o.loop fuel newNull ts).out ss ∧
      ∀ (r : CropRange), r.Usual → (∀ s ∈ ss, normalOf s.before.mode ≠ none) → ∀ (xs ys zs : List CropStep) (s : CropStep),
        ss = xs ++ s :: ys ++ zs → (∀ x ∈ xs, ¬ Begins r x) → Begins r s → (∀ y ∈ s :: ys, ¬ Stops r y) →
        (∀ z ∈ zs.head?, Stops r z) → ∀ (n : Axis), Croppable s.before n →
        ∃ pre, crop r (o.loop fuel newNull ts).out = (pre ++ (s :: ys).map (fun u => u.line.str), none) ∧
          (∀ us u, us ++ [u] <+: s :: ys → ∃ c b, readLines newNull ((o.loop fuel newNull ts).out.take (xs.length + us.length + 1)) =
              (c, none) ∧
            readLines newNull (pre ++ (us ++ [u]).map (fun u => u.line.str)) = (b, none) ∧ NearTo c b ∧ b.pos = .ok u.pos ∧
            ((∃ v ∈ us ++ [u], SetsMotion v.line) → Option.Rel SameGCode (c.mode 1) (b.mode 1))) ∧
          (zs = [] → ∃ b, readLines newNull (crop r (o.loop fuel newNull ts).out).1 = (b, none) ∧ NearTo a b) := by
  obtain ⟨-, hal⟩ := C97_alone o hf hr he hi fuel newNull fromNull_new.sound.wf fromNull_new.sound.ok fromNull_new.sound.named
    ts a hts htd
  obtain ⟨ls, c, h1, h2, h3⟩ := C66_same_partial o hr he hi fuel newNull fromNull_new.sound.wf fromNull_new.sound.ok
    fromNull_new.sound.named ts a hts htd
  rw [h1] at hal ⊢
  simp only at hal ⊢
  obtain ⟨ss, hss⟩ := trace_of_lines (i := 0) fromNull_new h2
  have hline : ∀ s ∈ ss, s.line.block.modalParams = [] ∧ Faithful s.line := by
    intro s hs
    obtain ⟨t, ht, hl⟩ := trace_line_mem hss s hs
    obtain ⟨l, q1, q2, q3⟩ := hal t ht
    rw [hl] at q1; cases q1
    exact ⟨q2, q3⟩
  refine ⟨ss, hss, fun r hru hp xs ys zs s hd hx hb hy hz n hc => ?_⟩
  have hmem : ∀ u ∈ s :: ys, u ∈ ss := fun u hu => by rw [hd]; simp at hu ⊢; tauto
  have hmf : MotionFirst ((s :: ys).map CropStep.line) := motionFirst_of (fun l hl => by
    obtain ⟨u, hu, rfl⟩ := List.mem_map.1 hl
    exact (hline u (hmem u hu)).1)
  obtain ⟨pre, k1, k2⟩ := C93_crop r hru hss hp hd hx hb hy hz hc (fun u hu => (hline u (hmem u hu)).2) (.inr hmf)
  refine ⟨pre, k1, fun us u hus => ?_, fun hz0 => ?_⟩
  · obtain ⟨c, b, q1, q2, q3, q4, q5⟩ := k2 us u hus
    exact ⟨c, b, q1, q2, q3, q4, fun hx => q5 (.inr hx)⟩
  · have hlast := List.dropLast_append_getLast (List.cons_ne_nil s ys)
    obtain ⟨c', b, q1, q2, q3, -, -⟩ := k2 (s :: ys).dropLast ((s :: ys).getLast (List.cons_ne_nil s ys)) (by rw [hlast])
    rw [hlast] at q2
    have hlen : ls.length = xs.length + (s :: ys).dropLast.length + 1 := by
      rw [← (trace_numbers hss).1, hd, hz0]
      simp
      omega
    rw [← hlen, List.take_length, h2] at q1
    cases q1
    rw [k1]
    exact ⟨b, q2, h3.near.trans q3⟩

/-! ## Instances -/

/-- A test for `Croppable` (sufficient). -/
def croppableB (m : Machine) (n : Axis) : Bool :=
  decide (normalOf m.mode = some n) && plainB ⟨'X', .num (m.rangeMax.val n)⟩ && [Axis.X, .Y, .Z].all (fun a => plainB ⟨'X', .num (m.absPos.val a)⟩) &&
    m.mode.gcodes.all (fun g => (g.word :: g.params).all plainB) && (m.mode 202).isNone &&
    (m.mode.motion.all (fun g => decide (g.cls.proc ≠ .canned))) && !m.incremental

theorem croppableB_sound {m : Machine} {n : Axis} (hm : FromNull m) (h : croppableB m n = true) : Croppable m n := by
  unfold croppableB at h
  simp only [Bool.and_eq_true, decide_eq_true_eq, List.all_eq_true, Option.isNone_iff_eq_none, Bool.not_eq_true', Option.all_eq_true]
    at h
  obtain ⟨⟨⟨⟨⟨⟨h1, h2⟩, h3⟩, h4⟩, h5⟩, h6⟩, h7⟩ := h
  have hsh : ∀ q, plainB ⟨'X', .num q⟩ = true → Shown q := by
    intro q hq
    have := (plainB_sound hq).1
    simpa only [Shown, Printable, show kindOf 'X' = some .flt from by decide] using this
  refine ⟨h1, hsh _ h2, fun a ha => hsh _ (h3 a (by revert ha; cases a <;> decide)), ?_, ?_, fun g hg => h6 g hg, h7⟩
  · intro k g hk w hw
    exact plainB_sound (h4 g ((mem_gcodes _ g).2 ⟨k, group_named _ _ (hm.sound.ok k g hk).1, hk⟩) w hw)
  · intro g s _ hs
    rw [h5] at hs; cases hs

/-- A program that cannot be cropped at line 4: the words there belong to the motion mode. -/
def fullFile : List (List Char) := ["G90 G17 G1 F100 X1", "Z5", "X2.5 Y-7 Z4", "Y8 F50", "X3"].map String.toList

example : (({ full := true } : NormOpts).loop 0 newNull fullFile).out =
    ["F100 G17 G90 G01 X1", "G01 Z5", "G01 X2.5 Y-7 Z4", "F50 G01 Y8", "G01 X3"].map String.toList := by decide +kernel

example : (({ full := true } : NormOpts).loop 0 newNull fullFile).status = .done ∧
    ∀ t ∈ (({ full := true } : NormOpts).loop 0 newNull fullFile).out, ∃ l, Line.ofText t = .ok l ∧ l.block.modalParams = [] ∧ Faithful l :=
  C97_alone _ rfl rfl rfl rfl 0 newNull fromNull_new.sound.wf fromNull_new.sound.ok fromNull_new.sound.named fullFile _
    (Prod.ext rfl (by decide +kernel)) (linesTidyB_sound _ (by decide +kernel))

example : ∃ b', readLines (newNull.processStr "G0".toList).1 (({ full := true } : NormOpts).loop 0 newNull fullFile).out = (b', none) ∧
    NearTo (readLines newNull fullFile).1 b' := by
  obtain ⟨b', h1, h2, -⟩ := C97_motion { full := true } rfl rfl rfl rfl 0 newNull fromNull_new.sound fullFile
    (readLines newNull fullFile).1 (Prod.ext rfl (by decide +kernel)) (linesTidyB_sound _ (by decide +kernel))
    (newNull.processStr "G0".toList).1 (fromNull_new.str _).sound
    (near_of fromNull_new (fromNull_new.str _) (fun x => by cases x <;> decide +kernel) (fun k hk => by
      have : (newNull.processStr "G0".toList).1.mode k = none := by
        cases hx : (newNull.processStr "G0".toList).1.mode k with
        | none => rfl
        | some g =>
          exfalso
          have hg := (mem_gcodes _ g).2 ⟨k, group_named _ _ ((fromNull_new.str "G0".toList).sound.ok k g hx).1, hx⟩
          have e : (newNull.processStr "G0".toList).1.mode.gcodes = [⟨.rapidMove, ⟨'G', .num 0⟩, [], false⟩] := by decide +kernel
          rw [e, List.mem_singleton] at hg
          have h1 := ((fromNull_new.str "G0".toList).sound.ok k g hx).1
          rw [hg] at h1
          exact hk (Option.some.inj (h1.symm.trans (by decide)))
      rw [this]
      exact .none))
  exact ⟨b', h1, h2⟩

/-- Its normalized form, cropped at line 4, leads a new machine to where the program leads. -/
example : ∃ b, readLines newNull (crop ⟨some [⟨'N', .eq, 4⟩], none⟩ (({ full := true } : NormOpts).loop 0 newNull fullFile).out).1 = (b, none) ∧
    NearTo (readLines newNull fullFile).1 b := by
  obtain ⟨ss, h, hc⟩ := C97_crop { full := true } rfl rfl rfl rfl 0 fullFile (readLines newNull fullFile).1
    (Prod.ext rfl (by decide +kernel)) (linesTidyB_sound _ (by decide +kernel))
  obtain ⟨hlen, hn⟩ := trace_numbers h
  have hlen : ss.length = 5 := by rw [hlen]; decide +kernel
  have hpl : ∀ s ∈ ss, normalOf s.before.mode ≠ none := by
    intro s hs
    obtain ⟨k, hk, rfl⟩ := List.getElem_of_mem hs
    rw [(trace_before h _ hs).2, hn k hk]
    have : k = 0 ∨ k = 1 ∨ k = 2 ∨ k = 3 ∨ k = 4 := by omega
    rcases this with rfl | rfl | rfl | rfl | rfl <;> decide +kernel
  obtain ⟨s1, s2, s3, s4, s5, rfl⟩ : ∃ s1 s2 s3 s4 s5, ss = [s1, s2, s3, s4, s5] := by
    rcases ss with _ | ⟨s1, _ | ⟨s2, _ | ⟨s3, _ | ⟨s4, _ | ⟨s5, _ | ⟨s6, ss⟩⟩⟩⟩⟩⟩ <;> simp at hlen
    exact ⟨_, _, _, _, _, rfl⟩
  have hn1 : s1.n = 1 := hn 0 (by simp)
  have hn2 : s2.n = 2 := hn 1 (by simp)
  have hn3 : s3.n = 3 := hn 2 (by simp)
  have hn4 : s4.n = 4 := hn 3 (by simp)
  have hbeg : ∀ s : CropStep, Begins ⟨some [⟨'N', .eq, 4⟩], none⟩ s ↔ s.n = 4 := by
    intro s
    unfold Begins Met
    have : ∀ x : Axis, 'N' ≠ x.letter := by intro x; cases x <;> decide
    simp [CmpOp.Means, this]
    norm_cast
  have hcr : Croppable s4.before .Z := by
    refine croppableB_sound (trace_fromNull h fromNull_new s4 (by simp)) ?_
    rw [(trace_before h s4 (by simp)).2, hn4]
    decide +kernel
  obtain ⟨pre, -, -, hend⟩ := hc ⟨some [⟨'N', .eq, 4⟩], none⟩ (by
      rintro cs (hc | hc) c hcc
      · cases hc; rw [List.mem_singleton.1 hcc]; simp
      · cases hc) hpl [s1, s2, s3] [s5] [] s4 rfl (by simp [hbeg, hn1, hn2, hn3]) ((hbeg s4).2 hn4)
    (fun y _ => by rintro ⟨cs, hcs, -⟩; cases hcs) (by simp) .Z hcr
  exact hend rfl

end Pygcode
