import Verif.Props.CropResume

/-!
# C96: a file cropped into pieces

Cropping a file at some places into pieces neither loses nor repeats a line, and a machine that reads the pieces one
after the other gets to where the file leads.
-/

namespace Pygcode
open Props Machine Spec

/-! ## Specification -/

/-- All conditions are true of the line. -/
def AllMet (b : List Cond) (s : CropStep) : Prop := ∀ c ∈ b, Met c s

/-- The conditions are on the line number and on X, Y, Z. -/
def UsualConds (b : List Cond) : Prop := ∀ c ∈ b, c.param ∈ ['N', 'X', 'Y', 'Z']

/-- What is printed in front of these lines of a file: how the machine gets to the first one. -/
def opening : List CropStep → List (List Char)
  | [] => []
  | s :: _ => (cropPreamble s.before.copy).1

/-- What is printed for these lines. -/
def bodies (ss : List CropStep) : List (List Char) := ss.map (fun s => s.line.str)

/-- The ranges that cut a file, from `a` on, where the conditions `bs` are true. -/
def cuts (a : Option (List Cond)) : List (List Cond) → List CropRange
  | [] => [⟨a, none⟩]
  | b :: bs => ⟨a, some b⟩ :: cuts (some b) bs

/-- `CutAt done bs ps`: after the lines `done`, the pieces `ps` (none is empty) begin at the first lines of the file of which
`bs` are true. -/
inductive CutAt : List CropStep → List (List Cond) → List (List CropStep) → Prop
  | last {done p} : p ≠ [] → CutAt done [] [p]
  | more {done b bs p q qs} : p ≠ [] → (∀ x ∈ done ++ p, ¬ AllMet b x) → (∀ x ∈ q.head?, AllMet b x) →
      CutAt (done ++ p) bs (q :: qs) → CutAt done (b :: bs) (p :: q :: qs)

/-! ## Two pieces -/

/-- **C96** (one cut): the ranges `:b` and `b:` print the lines before the first one where the conditions hold, and those
from there on, whatever the conditions are. -/
theorem C96_cut (b : List Cond) (hb : UsualConds b) {ts : List (List Char)} {ss : List CropStep}
    (h : CropTrace 0 newNull ts ss) (hp : ∀ s ∈ ss, normalOf s.before.mode ≠ none) :
    ∃ xs ys, ss = xs ++ ys ∧ (∀ x ∈ xs, ¬ AllMet b x) ∧ (∀ y ∈ ys.head?, AllMet b y) ∧
      crop ⟨none, some b⟩ ts = (opening ss ++ bodies xs, none) ∧ crop ⟨some b, none⟩ ts = (opening ys ++ bodies ys, none) := by
  classical
  have hr1 : CropRange.Usual ⟨none, some b⟩ := by
    rintro cs (hc | hc)
    · cases hc
    · cases hc; exact hb
  have hr2 : CropRange.Usual ⟨some b, none⟩ := by
    rintro cs (hc | hc)
    · cases hc; exact hb
    · cases hc
  have hs1 : ∀ s, Stops ⟨none, some b⟩ s ↔ AllMet b s := fun s =>
    ⟨fun ⟨cs, hc, h⟩ => by cases hc; exact h, fun h => ⟨b, rfl, h⟩⟩
  have hb1 : ∀ s, Begins ⟨none, some b⟩ s := fun s cs hc => by cases hc
  have hb2 : ∀ s, Begins ⟨some b, none⟩ s ↔ AllMet b s := fun s =>
    ⟨fun h => h b rfl, fun h cs hc => by cases hc; exact h⟩
  have hs2 : ∀ s, ¬ Stops ⟨some b, none⟩ s := fun s ⟨cs, hc, _⟩ => by cases hc
  set q : CropStep → Bool := fun s => !decide (AllMet b s) with hq
  refine ⟨ss.takeWhile q, ss.dropWhile q, List.takeWhile_append_dropWhile.symm, ?_, ?_, ?_, ?_⟩
  · intro x hx
    simpa [hq] using List.mem_takeWhile_imp hx
  · intro y hy
    have := List.head?_dropWhile_not q ss
    rw [Option.mem_def.1 hy] at this
    simpa [hq] using this
  · rcases C63_crop _ hr1 h hp with ⟨h1, hn⟩ | ⟨xs, s, ys, zs, he, hc, hx, -, hy, hz⟩ | ⟨xs, s, zs, he, hc, hx, -, hst⟩
    · cases ss with
      | nil => rw [h1]; rfl
      | cons s ss => exact absurd (hb1 s) (hn s List.mem_cons_self)
    · have : xs = [] := List.eq_nil_iff_forall_not_mem.2 (fun x hm => hx x hm (hb1 x))
      subst this
      rw [hc, he]
      have htake : (([] ++ s :: ys ++ zs).takeWhile q) = s :: ys := by
        rw [List.nil_append, List.takeWhile_append_of_pos (by
          intro y hm
          have := mt (hs1 y).2 (hy y hm)
          simpa [hq] using this)]
        cases zs with
        | nil => simp
        | cons z zs => rw [List.takeWhile_cons_of_neg (by simpa [hq] using (hs1 z).1 (hz z rfl)), List.append_nil]
      rw [htake]
      rfl
    · have : xs = [] := List.eq_nil_iff_forall_not_mem.2 (fun x hm => hx x hm (hb1 x))
      subst this
      rw [hc, he, List.nil_append, List.takeWhile_cons_of_neg (by simpa [hq] using (hs1 s).1 hst)]
      simp [opening, bodies]
  · rcases C63_crop _ hr2 h hp with ⟨h1, hn⟩ | ⟨xs, s, ys, zs, he, hc, hx, hbs, -, hz⟩ | ⟨xs, s, zs, he, hc, hx, -, hst⟩
    · have : ss.dropWhile q = [] := by
        rw [List.dropWhile_eq_nil_iff]
        intro x hx
        have := mt (hb2 x).2 (hn x hx)
        simpa [hq] using this
      rw [h1, this]; rfl
    · have hz0 : zs = [] := by
        cases zs with
        | nil => rfl
        | cons z zs => exact absurd (hz z rfl) (hs2 z)
      subst hz0
      have : ss.dropWhile q = s :: ys := by
        rw [he, List.append_nil, List.dropWhile_append_of_pos (by
          intro x hm
          have := mt (hb2 x).2 (hx x hm)
          simpa [hq] using this)]
        rw [List.dropWhile_cons_of_neg (by simpa [hq] using (hb2 s).1 hbs)]
      rw [hc, this]
      rfl
    · exact absurd hst (hs2 s)

/-! ## Any number of pieces -/

theorem pieces_print {ts : List (List Char)} {ss : List CropStep} (h : CropTrace 0 newNull ts ss)
    (hp : ∀ s ∈ ss, normalOf s.before.mode ≠ none) {done : List CropStep} {bs : List (List Cond)} {ps : List (List CropStep)}
    (hc : CutAt done bs ps) : (∀ b ∈ bs, UsualConds b) → ∀ (a : Option (List Cond)), (∀ b ∈ a, UsualConds b) →
    (∀ b ∈ a, ∀ x ∈ done, ¬ AllMet b x) → (a = none → done = []) → (∀ b ∈ a, ∀ p ∈ ps.head?, ∀ x ∈ p.head?, AllMet b x) →
    ss = done ++ ps.flatten →
    (cuts a bs).map (fun r => crop r ts) = ps.map (fun p => (opening p ++ bodies p, none)) := by
  have hbeg : ∀ (a : Option (List Cond)) (l : Option (List Cond)) (s : CropStep), Begins ⟨a, l⟩ s ↔ ∀ b ∈ a, AllMet b s :=
    fun a l s => ⟨fun h b hb c hc => h b hb c hc, fun h b hb c hc => h b hb c hc⟩
  have hstop : ∀ (a : Option (List Cond)) (b : List Cond) (s : CropStep), Stops ⟨a, some b⟩ s ↔ AllMet b s := fun a b s =>
    ⟨fun ⟨cs, hc, h⟩ => by cases hc; exact h, fun h => ⟨b, rfl, h⟩⟩
  have hnb : ∀ {a : Option (List Cond)} {l : Option (List Cond)} {done : List CropStep},
      (∀ b ∈ a, ∀ x ∈ done, ¬ AllMet b x) → (a = none → done = []) → ∀ x ∈ done, ¬ Begins ⟨a, l⟩ x := by
    intro a l done h1 h2 x hx
    rw [hbeg]
    cases a with
    | none => rw [h2 rfl] at hx; cases hx
    | some b => exact fun hall => h1 b rfl x hx (hall b rfl)
  induction hc with
  | @last done p hne =>
    intro _ a ha hd h0 hh hss
    obtain ⟨s, ys, rfl⟩ := List.exists_cons_of_ne_nil hne
    have := crop_eq ⟨a, none⟩ (by
        rintro cs (hc | hc)
        · exact ha cs hc
        · cases hc) h hp (xs := done) (s := s) (ys := ys) (zs := []) (by simpa using hss) (hnb hd h0)
      ((hbeg _ _ _).2 (fun b hb => hh b hb _ rfl _ rfl)) (fun y _ ⟨cs, hc, _⟩ => by cases hc) (by simp)
    simp only [cuts, List.map_cons, List.map_nil, this]
    rfl
  | @more done b bs p q qs hne hno hyes hrest ih =>
    intro hu a ha hd h0 hh hss
    obtain ⟨s, ys, rfl⟩ := List.exists_cons_of_ne_nil hne
    have hub := hu b List.mem_cons_self
    have hq : q ≠ [] := by cases hrest <;> assumption
    have := crop_eq ⟨a, some b⟩ (by
        rintro cs (hc | hc)
        · exact ha cs hc
        · cases hc; exact hub) h hp (xs := done) (s := s) (ys := ys) (zs := (q :: qs).flatten) (by simpa using hss) (hnb hd h0)
      ((hbeg _ _ _).2 (fun b hb => hh b hb _ rfl _ rfl))
      (fun y hy hst => hno y (List.mem_append_right _ hy) ((hstop _ _ _).1 hst))
      (by
        intro z hz
        rw [hstop]
        apply hyes z
        obtain ⟨x, q, rfl⟩ := List.exists_cons_of_ne_nil hq
        simpa using hz)
    have ih := ih (fun b hb => hu b (List.mem_cons_of_mem _ hb)) (some b) (by simpa using hub) (by simpa using hno) (by simp)
      (by simpa using hyes) (by simpa using hss)
    simp only [cuts, List.map_cons, this]
    rw [ih]
    rfl

/-- **C96** (pieces): the ranges `:b₁`, `b₁:b₂`, …, `bₖ:` print the pieces of the file, each with the way to its first line
in front.  All lines together are the lines of the file, in order and once. -/
theorem C96_pieces {ts : List (List Char)} {ss : List CropStep} (h : CropTrace 0 newNull ts ss)
    (hp : ∀ s ∈ ss, normalOf s.before.mode ≠ none) {bs : List (List Cond)} {ps : List (List CropStep)} (hu : ∀ b ∈ bs, UsualConds b)
    (hc : CutAt [] bs ps) (hss : ss = ps.flatten) :
    (cuts none bs).map (fun r => crop r ts) = ps.map (fun p => (opening p ++ bodies p, none)) ∧
      (ps.map bodies).flatten = bodies ss := by
  refine ⟨pieces_print h hp hc hu none (by simp) (by simp) (by simp) (by simp) (by simpa using hss), ?_⟩
  rw [hss, bodies, List.map_flatten]
  rfl

/-! ## Reading the pieces -/

/-- A piece that a machine can go on with (the conditions of C93). -/
structure Resumable (p : List CropStep) : Prop where
  ways : ∀ s ∈ p.head?, (∃ n, Croppable s.before n) ∧ (RapidMode s.before ∨ MotionFirst (p.map CropStep.line))
  lines : ∀ u ∈ p, Faithful u.line

theorem clear_null : Clear newNull := by
  obtain ⟨ss, h⟩ := trace_exists ["G0".toList] 0 newNull (by decide +kernel)
  have := trace_clear h
  generalize "G0".toList = t at h
  cases h with
  | cons h1 h2 h3 h4 => exact (this _ List.mem_cons_self).1

theorem FromNull.clear {m : Machine} (h : FromNull m) : Clear m := clear_null.of_frame h.frame h.sound.wf

/-- A piece, read by a machine that is where the piece goes on. -/
theorem piece_resume {ts : List (List Char)} {ss : List CropStep} (h : CropTrace 0 newNull ts ss) {p rest : List CropStep}
    {i : ℕ} {a b : Machine} {us : List (List Char)} (htr : CropTrace i a us (p ++ rest)) (hss : ∀ s ∈ p, s ∈ ss) (hne : p ≠ [])
    (hr : Resumable p) (hn : NearTo a b) (ha : FromNull a) (hb : FromNull b) :
    ∃ a' b', readLines a (us.take p.length) = (a', none) ∧ readLines b (opening p ++ bodies p) = (b', none) ∧ NearTo a' b' ∧
      (∀ u ∈ p.getLast?, b'.pos = .ok u.pos) ∧
      ((∀ s ∈ p.head?, RapidMode s.before) ∨ (∃ u ∈ p, SetsMotion u.line) → Option.Rel SameGCode (a'.mode 1) (b'.mode 1)) := by
  obtain ⟨s, ys, rfl⟩ := List.exists_cons_of_ne_nil hne
  obtain ⟨⟨n, hc⟩, hm⟩ := hr.ways s rfl
  have hsa : s.before = a := by
    rw [List.cons_append] at htr
    cases htr; rfl
  obtain ⟨out, M, p1, p2, p3, p4, p5⟩ := C64_position_partial h s (hss s List.mem_cons_self) n hc b hb.clear (by
    intro h0
    have h3 := hn.mode 3 (by decide)
    rw [hsa] at h0
    have h0 : a.mode 3 = none := h0
    rw [h0] at h3
    have : b.mode 3 = none := by
      generalize b.mode 3 = y at h3
      cases h3; rfl
    unfold Machine.incremental
    rw [show b.mode.distance = none from this])
  have hM := hb.lines out
  rw [p2] at hM
  rw [hsa] at p3 p4
  have hnear : NearTo a M := near_of ha hM p3 (fun k hk => by
    obtain ⟨q1, q2⟩ := p4 k hk
    cases hx : a.mode k with
    | none =>
      rw [q1 hx]
      have := hn.mode k hk
      rwa [hx] at this
    | some g =>
      obtain ⟨g', hg', hsg⟩ := q2 g hx
      rw [hg']
      exact .some hsg)
  have hrel : RapidMode s.before → Option.Rel SameGCode (a.mode 1) (M.mode 1) := fun hr => by
    rw [p5]; rw [hsa] at hr; exact rapid_same ha.sound hr
  obtain ⟨a', b', k1, k2, k3, k4, k5⟩ := lines_resume htr hnear ha hM hr.lines (hm.imp_left hrel)
  refine ⟨a', b', k1, ?_, k3, ?_, ?_⟩
  · have e : opening (s :: ys) = out := by simp only [opening, p1]
    rw [e, readLines_append, p2]
    exact k2
  · intro u hu
    rw [← k3.pos]
    exact k4 u hu
  · intro hx
    exact k5 (hx.imp_left (fun hx => hrel (hx s rfl)))

theorem pieces_resume {ts : List (List Char)} {ss : List CropStep} (h : CropTrace 0 newNull ts ss) {ps : List (List CropStep)} :
    ∀ {i : ℕ} {a b : Machine} {us : List (List Char)}, CropTrace i a us ps.flatten → (∀ p ∈ ps, ∀ s ∈ p, s ∈ ss) →
      (∀ p ∈ ps, p ≠ [] ∧ Resumable p) → NearTo a b → FromNull a → FromNull b →
    ∃ a' b', readLines a us = (a', none) ∧ readLines b (ps.flatMap (fun p => opening p ++ bodies p)) = (b', none) ∧ NearTo a' b' ∧
      ∀ p ∈ ps.getLast?, (∀ u ∈ p.getLast?, b'.pos = .ok u.pos) ∧
        ((∀ s ∈ p.head?, RapidMode s.before) ∨ (∃ u ∈ p, SetsMotion u.line) → Option.Rel SameGCode (a'.mode 1) (b'.mode 1)) := by
  induction ps with
  | nil =>
    intro i a b us htr _ _ hn _ _
    generalize hz : ([] : List (List CropStep)).flatten = z at htr
    cases htr with
    | nil => exact ⟨a, b, rfl, rfl, hn, by simp⟩
    | cons => cases hz
  | cons p ps ih =>
    intro i a b us htr hss hps hn ha hb
    rw [List.flatten_cons] at htr
    obtain ⟨hne, hr⟩ := hps p List.mem_cons_self
    obtain ⟨a₁, b₁, r1, r2, r3, r4, r5⟩ := piece_resume h htr (hss p List.mem_cons_self) hne hr hn ha hb
    obtain ⟨m', q1, q2⟩ := trace_split htr
    rw [r1] at q1
    cases q1
    have ha1 := ha.lines (us.take p.length)
    rw [r1] at ha1
    have hb1 := hb.lines (opening p ++ bodies p)
    rw [r2] at hb1
    obtain ⟨a', b', k1, k2, k3, k4⟩ := ih q2 (fun x hx => hss x (List.mem_cons_of_mem _ hx))
      (fun x hx => hps x (List.mem_cons_of_mem _ hx)) r3 ha1 hb1
    refine ⟨a', b', ?_, ?_, k3, ?_⟩
    · rw [← List.take_append_drop p.length us, readLines_append, r1]
      exact k1
    · rw [List.flatMap_cons, readLines_append, r2]
      exact k2
    · intro x hx
      cases ps with
      | nil =>
        simp at hx
        subst hx
        simp only [List.flatMap_nil, readLines, Prod.mk.injEq, and_true] at k2
        subst k2
        refine ⟨r4, fun hh => ?_⟩
        have : a' = a₁ := by
          generalize hz : ([] : List (List CropStep)).flatten = z at q2
          generalize us.drop p.length = vs at *
          cases q2 with
          | nil => simp only [readLines, Prod.mk.injEq, and_true] at k1; exact k1.symm
          | cons => cases hz
        rw [this]
        exact r5 hh
      | cons y ys =>
        rw [List.getLast?_cons_cons] at hx
        exact k4 x hx

/-- **C96** (machine): a new machine that reads what is printed for all the pieces, one after the other, gets to where the
file leads it: same position, coordinate system and modes, the motion mode if the last piece sets it or goes on with G0. -/
theorem C96_machine {ts : List (List Char)} {ss : List CropStep} (h : CropTrace 0 newNull ts ss)
    (hp : ∀ s ∈ ss, normalOf s.before.mode ≠ none) {bs : List (List Cond)} {ps : List (List CropStep)} (hu : ∀ b ∈ bs, UsualConds b)
    (hc : CutAt [] bs ps) (hss : ss = ps.flatten) (hr : ∀ p ∈ ps, Resumable p) :
    ∃ a b, readLines newNull ts = (a, none) ∧ readLines newNull ((cuts none bs).flatMap (fun r => (crop r ts).1)) = (b, none) ∧
      NearTo a b ∧ ∀ p ∈ ps.getLast?, (∀ u ∈ p.getLast?, b.pos = .ok u.pos) ∧
        ((∀ s ∈ p.head?, RapidMode s.before) ∨ (∃ u ∈ p, SetsMotion u.line) → Option.Rel SameGCode (a.mode 1) (b.mode 1)) := by
  have hpr := (C96_pieces h hp hu hc hss).1
  have hne : ∀ {done : List CropStep} {bs : List (List Cond)} {ps : List (List CropStep)}, CutAt done bs ps → ∀ p ∈ ps, p ≠ [] := by
    intro done bs ps hc
    induction hc with
    | last h => simpa using h
    | more h _ _ _ ih =>
      intro p hp
      rcases List.mem_cons.1 hp with rfl | hp
      · exact h
      · exact ih p hp
  have hout : (cuts none bs).flatMap (fun r => (crop r ts).1) = ps.flatMap (fun p => opening p ++ bodies p) := by
    have := congrArg (fun l => (l.map Prod.fst).flatten) hpr
    simp only [List.map_map] at this
    simpa [List.flatMap, Function.comp_def] using this
  rw [hout]
  have hh := h
  rw [hss] at hh
  exact pieces_resume h hh (fun p hp s hs => by rw [hss]; exact List.mem_flatten.2 ⟨p, hp, hs⟩)
    (fun p hp => ⟨hne hc p hp, hr p hp⟩) (NearTo.refl _) fromNull_new fromNull_new

/-- The order of the places matters: if the conditions of a cut are true before those of the cut in front of it, lines are
printed again (the first line is in the first and in the third piece). -/
theorem C96_order_limit :
    let file := ["G1 F100 Z-1", "X1 Z1", "X6", "Z-2"].map String.toList
    let out := fun t : String => ((rangeType t.toList).map (fun r => (crop r file).1)).getD []
    "G01 Z-1 F100".toList ∈ out ":x>=5" ∧ "G01 Z-1 F100".toList ∉ out "x>=5:z<0" ∧ "G01 Z-1 F100".toList ∈ out "z<0:" := by
  decide +kernel

/-! ## Instances -/

theorem null_croppable : Croppable newNull .Z := by
  have hv : newNull.rangeMax.val .Z = 0 ∧ ∀ a ∈ xyz, newNull.absPos.val a = 0 := by decide +kernel
  have hm : ∀ k, newNull.mode k = none := fun _ => rfl
  refine ⟨by decide +kernel, ⟨0, 0, by omega, by norm_num, by rw [hv.1]; norm_num⟩, fun a ha => ⟨0, 0, by omega, by norm_num, by
    rw [hv.2 a ha]; norm_num⟩, fun k g h => ?_, fun g s h => ?_, fun g h => ?_, by decide +kernel⟩
  · rw [hm k] at h; cases h
  · rw [hm 14] at h; cases h
  · have h : newNull.mode 1 = some g := h
    rw [hm 1] at h; cases h

/-- The first three lines of `resumeFile`. -/
def resumeHead : List Line :=
  [⟨⟨[⟨'G', .num 90⟩, ⟨'G', .num 17⟩, ⟨'G', .num 1⟩, ⟨'F', .num 100⟩, ⟨'X', .num 1⟩],
    [⟨.absoluteDistanceMode, ⟨'G', .num 90⟩, [], false⟩, ⟨.selectXYPlane, ⟨'G', .num 17⟩, [], false⟩,
      ⟨.linearMove, ⟨'G', .num 1⟩, [⟨'X', .num 1⟩], false⟩, ⟨.feedRate, ⟨'F', .num 100⟩, [], false⟩], []⟩, none, none⟩,
   ⟨⟨[⟨'Z', .num 5⟩], [], [⟨'Z', .num 5⟩]⟩, none, none⟩,
   ⟨⟨[⟨'X', .num (5/2)⟩, ⟨'Y', .num (-7)⟩, ⟨'Z', .num 4⟩], [], [⟨'X', .num (5/2)⟩, ⟨'Y', .num (-7)⟩, ⟨'Z', .num 4⟩]⟩, none, none⟩]

theorem resume_pieces : ∃ (ss : List CropStep) (ps : List (List CropStep)), CropTrace 0 newNull resumeFile ss ∧
    (∀ s ∈ ss, normalOf s.before.mode ≠ none) ∧ ss = ps.flatten ∧ CutAt [] [[⟨'N', .eq, 4⟩]] ps ∧ (∀ p ∈ ps, Resumable p) := by
  obtain ⟨xs, ys, s, h, hpl, hc, hf, hmf, -, hxs, hx, hs⟩ := resume_steps
  rw [List.append_nil] at h hpl
  have hne : xs ≠ [] := by intro h0; rw [h0] at hxs; cases hxs
  have hlines : xs.map CropStep.line = resumeHead := by
    have h3 : (resumeFile.map Line.ofText).take 3 = resumeHead.map .ok := by decide +kernel
    rw [trace_lines h, List.map_append, List.take_left' (by simpa using hxs)] at h3
    have : (xs.map CropStep.line).map (Except.ok (ε := Err)) = resumeHead.map .ok := by rw [← h3, List.map_map]; rfl
    exact List.map_injective_iff.2 (fun a b h => by cases h; rfl) this
  have hmem : ∀ u ∈ xs, u.line ∈ resumeHead := fun u hu => by rw [← hlines]; exact List.mem_map_of_mem hu
  have hbeg : ∀ u, Begins ⟨some [⟨'N', .eq, 4⟩], none⟩ u ↔ AllMet [⟨'N', .eq, 4⟩] u :=
    fun u => ⟨fun h => h _ rfl, fun h cs hcs => by cases hcs; exact h⟩
  refine ⟨xs ++ s :: ys, [xs, s :: ys], h, hpl, by simp, ?_, ?_⟩
  · refine .more hne (fun x hx' => ?_) (fun x hx' => ?_) (.last (by simp))
    · rw [← hbeg]; exact hx x hx'
    · cases hx'; exact (hbeg s).1 hs
  · intro p hp
    rcases List.mem_cons.1 hp with rfl | hp
    · refine ⟨fun u hu => ⟨⟨.Z, ?_⟩, .inr ?_⟩, fun u hu => ⟨fun w hw => ?_, ?_, ?_⟩⟩
      · have : u.before = newNull := by
          obtain ⟨v, vs, rfl⟩ := List.exists_cons_of_ne_nil hne
          cases hu
          generalize resumeFile = t at h
          rw [List.cons_append] at h
          cases h; rfl
        rw [this]
        exact null_croppable
      · rw [hlines]
        exact ⟨rfl, .inl ⟨⟨.linearMove, ⟨'G', .num 1⟩, [⟨'X', .num 1⟩], false⟩, by simp, by decide +kernel⟩⟩
      · have : ∀ l ∈ resumeHead, ∀ w ∈ l.block.words, plainB w = true := by decide +kernel
        exact plainB_sound (this _ (hmem u hu) w hw)
      · have : ∀ l ∈ resumeHead, ∀ g ∈ l.block.gcodes, ∀ w ∈ l.block.modalParams, w.letter ∉ g.cls.params := by decide +kernel
        exact this _ (hmem u hu)
      · have : ∀ l ∈ resumeHead, l.macro? = none := by decide +kernel
        exact .inl (this _ (hmem u hu))
    · rw [List.mem_singleton.1 hp]
      exact ⟨fun u hu => by cases hu; exact ⟨⟨.Z, hc⟩, .inr hmf⟩, hf⟩

example : (rangeType ":4".toList, rangeType "4:".toList) =
    (some ⟨none, some [⟨'N', .eq, 4⟩]⟩, some ⟨some [⟨'N', .eq, 4⟩], none⟩) := by decide +kernel

example : ∃ b, readLines newNull ((crop ⟨none, some [⟨'N', .eq, 4⟩]⟩ resumeFile).1 ++ (crop ⟨some [⟨'N', .eq, 4⟩], none⟩ resumeFile).1) =
    (b, none) ∧ NearTo (readLines newNull resumeFile).1 b := by
  obtain ⟨ss, ps, h, hpl, hss, hc, hr⟩ := resume_pieces
  obtain ⟨a, b, h1, h2, h3, -⟩ := C96_machine h hpl (by simp [UsualConds]) hc hss hr
  refine ⟨b, by simpa [cuts] using h2, ?_⟩
  rw [h1]
  exact h3

example : ∃ p q ss, CropTrace 0 newNull resumeFile ss ∧ (crop ⟨none, some [⟨'N', .eq, 4⟩]⟩ resumeFile) = (opening p ++ bodies p, none) ∧
    (crop ⟨some [⟨'N', .eq, 4⟩], none⟩ resumeFile) = (opening q ++ bodies q, none) ∧ bodies p ++ bodies q = bodies ss := by
  obtain ⟨ss, ps, h, hpl, hss, hc, hr⟩ := resume_pieces
  obtain ⟨h1, h2⟩ := C96_pieces h hpl (by simp [UsualConds]) hc hss
  cases hc with
  | more _ _ _ hl =>
    cases hl with
    | last =>
      simp only [cuts, List.map_cons, List.map_nil, List.cons.injEq, and_true] at h1
      exact ⟨_, _, ss, h, h1.1, h1.2, by simpa using h2⟩

/-- Conditions on a position. -/
example : ∃ ss, CropTrace 0 newNull resumeFile ss ∧ ∃ xs ys, ss = xs ++ ys ∧
    crop ⟨none, some [⟨'X', .ge, 2⟩]⟩ resumeFile = (opening ss ++ bodies xs, none) ∧
    crop ⟨some [⟨'X', .ge, 2⟩], none⟩ resumeFile = (opening ys ++ bodies ys, none) := by
  obtain ⟨ss, ps, h, hpl, -⟩ := resume_pieces
  obtain ⟨xs, ys, h1, -, -, h2, h3⟩ := C96_cut [⟨'X', .ge, 2⟩] (by simp [UsualConds]) h hpl
  exact ⟨ss, h, xs, ys, h1, h2, h3⟩

end Pygcode
