import Verif.Props.NormArcProgram

/-!
# Drilling cycles of whole programs, printed as moves (C117)
-/

namespace Pygcode
open Props Machine Spec

/-! ## Specification -/

/-- A machine that starts as `m` and reads the texts `heads 0`, `heads 1`, …, each with one line more at most than the one before,
goes along `path`: by that line it makes the next move of the path. -/
def Traces (m : Machine) (heads : ℕ → List (List Char)) (path : Path) : Prop :=
  ∀ n s, path[n]? = some s → heads n <+: heads (n + 1) ∧ (heads (n + 1)).length ≤ (heads n).length + 1 ∧
    ∃ b p, readLines m (heads (n + 1)) = (b, none) ∧ b.pos = .ok p ∧ p.val = s.2 ∧ b.mode.motion.map GCode.cls = some s.1

/-! ## Proof -/

theorem loop_append (o : NormOpts) (fuel : ℕ) (ts us : List (List Char)) : ∀ m : Machine,
    o.loop fuel m (ts ++ us) = (o.loop fuel m ts).andThen (fun m => o.loop fuel m us) := by
  induction ts with
  | nil => intro m; rfl
  | cons t ts ih =>
    intro m
    show (o.line fuel m t).andThen (fun m => o.loop fuel m (ts ++ us)) = _
    rw [funext ih]
    exact (NormRes.andThen_assoc _ _ _).symm

theorem linesExpand_append {o : NormOpts} {fuel : ℕ} (ts us : List (List Char)) : ∀ {m m' : Machine},
    readLines m ts = (m', none) → LinesExpand o fuel m (ts ++ us) → LinesExpand o fuel m ts ∧ LinesExpand o fuel m' us := by
  induction ts with
  | nil => intro m m' h h'; cases h; exact ⟨trivial, h'⟩
  | cons t ts ih =>
    intro m m' h h'
    unfold readLines at h
    rcases hz : m.processStr t with ⟨m₁, _ | e⟩
    · rw [hz] at h
      have h2 := h'.2
      rw [hz] at h2
      obtain ⟨k1, k2⟩ := ih h h2
      exact ⟨⟨h'.1, by rw [hz]; exact k1⟩, k2⟩
    · rw [hz] at h; cases h

theorem loop_follows (o : NormOpts) (hr : o.rmGcodes = []) (hi : o.rmInvalid = false) (hce : o.cannedExpand = true) (fuel : ℕ)
    (ts : List (List Char)) : ∀ {m b : Machine}, Behind o.cannedCodes m b → Sound m → Sound b →
      m.ignoreInvalid = false → xyz ⊆ m.axes → LinesExpand o fuel m ts →
      Follows o.cannedCodes b (o.loop fuel m ts) (readLines m ts) := by
  induction ts with
  | nil => exact fun h hm hb _ _ _ => .nil h hm hb
  | cons t ts ih =>
    intro m b h hm hb hig hax hts
    unfold NormOpts.loop readLines
    refine (line_follows o hr hi hce fuel h hm hb hig hax t hts.1).andThen ?_
    intro b' _ h' hm' hb'
    have hfr := str_frozen hm.wf t
    exact ih h' hm' hb' ((congrArg (fun x => x.2.1) hfr).trans hig)
      (by have : (m.processStr t).1.axes = m.axes := congrArg Prod.fst hfr
          rw [this]; exact hax) hts.2

/-- What has been printed when the lines of an expansion begin, and what they are. -/
theorem expandLine_head (o : NormOpts) (hr : o.rmGcodes = []) (fuel : ℕ) {cc : List Word} {m b : Machine} (h : Behind cc m b)
    (hm : Sound m) (hb : Sound b) {t : List Char} {l : Line} (hl : Line.ofText t = .ok l) {gs : List GCode}
    (hgs : m.blockModalGcodes l.block = .ok gs) {befores afters : List GCode} {g : GCode}
    (hsp : splitGcodes gs .cannedCycle true = (befores, [g], afters)) (hX : Expands o fuel m l befores g afters)
    (hd : (o.expandLine fuel m gs l.comment).status = .done) :
    ∃ m' head tail p out b', m.processAll befores = (m', none) ∧ m'.pos = .ok p ∧ m'.axes = m.axes ∧
      simplify fuel g p (planeOf m') m'.incremental false m'.axes = (out, .done) ∧
      (o.expandLine fuel m gs l.comment).out =
        head ++ (o.omitGen (out, .done)).1.flatMap (fun g => o.writeOne [g] [] none none) ++ tail ∧
      readLines b head = (b', none) ∧ Behind cc m' b' ∧ Sound m' ∧ Sound b' ∧ IsCycle g ∧ GOK g := by
  obtain ⟨e1, e2, e3, e4, e5, e6⟩ := effective_ok hl hm.ok hm.named hgs
  have hso : gs.Pairwise (fun a b => a.cls.order ≤ b.cls.order) := by
    have := (execSort_stable gs).2.1
    rw [e5] at this
    exact this
  obtain ⟨ha, hsub⟩ := split_append hsp
  rw [e5] at ha
  have hmb : ∀ x ∈ befores, x ∈ gs := fun x hx => by rw [ha]; simp [hx]
  have hmg : g ∈ gs := by rw [ha]; simp
  have sb : befores.Sublist gs := by rw [ha]; exact List.sublist_append_left _ _
  unfold NormOpts.expandLine at hd ⊢
  rw [hsp] at hd ⊢
  simp only at hd ⊢
  rw [← NormRes.andThen_assoc] at hd ⊢
  obtain ⟨d1, d2, d3⟩ := res_done hd
  have hT : Follows cc b ((o.putProcess m befores).andThen fun m =>
      NormRes.put m (o.write [] [] (some (.brackets ("expanded: ".toList ++ NormOpts.reprText g)))))
      (Machine.andThen (m.processAll befores) (fun m => (m, none))) := by
    refine (putProcess_follows o hr h hm hb befores (fun x hx => e1 x (hmb x hx)) (fun x hx => e2 x (hmb x hx))
      (e3.sublist sb) (fun x hx => e4 x (hmb x hx)) (execSort_of_pairwise (hso.sublist sb)) hX.plainB
      hX.conflictB).andThen ?_
    intro b₁ _ h₁ hm₁ hb₁
    exact comment_follows o hr h₁ hm₁ hb₁ _ (by
      split_ifs
      · trivial
      · exact expanded_comment g hX.plainG)
  obtain ⟨k1, b', k2, k3, k4, k5⟩ := hT d1
  have hpa : m.processAll befores = (((o.putProcess m befores).andThen fun m =>
      NormRes.put m (o.write [] [] (some (.brackets ("expanded: ".toList ++ NormOpts.reprText g))))).m, none) := by
    rcases hz : m.processAll befores with ⟨m₁, _ | e⟩
    · rw [hz] at k1; exact k1
    · rw [hz] at k1; cases k1
  rw [d3]
  generalize ((o.putProcess m befores).andThen fun m =>
      NormRes.put m (o.write [] [] (some (.brackets ("expanded: ".toList ++ NormOpts.reprText g))))) = r at *
  obtain ⟨f1, f2, f3⟩ := res_done d2
  rw [f3]
  have hax' : r.m.axes = m.axes := by
    have : (m.processAll befores).1.axes = m.axes := congrArg Prod.fst (processAll_frozen (fun x hx => e2 x (hmb x hx)) hm.wf)
    rw [hpa] at this
    exact this
  have hput : ∃ p out, r.m.pos = .ok p ∧ simplify fuel g p (planeOf r.m) r.m.incremental false r.m.axes = (out, .done) ∧
      (o.putExpansion fuel r.m g).out = (o.omitGen (out, .done)).1.flatMap (fun g => o.writeOne [g] [] none none) := by
    cases hp : r.m.pos with
    | error e => unfold NormOpts.putExpansion at f1; rw [hp] at f1; cases f1
    | ok p =>
      have hput : o.putExpansion fuel r.m g =
          ⟨(o.expansion fuel r.m p g).1.flatMap (fun g => o.writeOne [g] [] none none), r.m, (o.expansion fuel r.m p g).2⟩ := by
        unfold NormOpts.putExpansion
        rw [hp]
        exact putAll_eq _ _ _ _
      rw [hput] at f1 ⊢
      have hex : o.expansion fuel r.m p g = o.omitGen (simplify fuel g p (planeOf r.m) r.m.incremental false r.m.axes) := rfl
      rw [hex] at f1 ⊢
      rcases hs : simplify fuel g p (planeOf r.m) r.m.incremental false r.m.axes with ⟨out, st⟩
      rw [hs] at f1
      have hst : st = .done := omitGen_done f1
      subst hst
      exact ⟨p, out, rfl, hs, rfl⟩
  obtain ⟨p, out, g1, g2, g3⟩ := hput
  rw [g3]
  exact ⟨r.m, r.out, _, p, out, b', hpa, g1, hax', g2, (List.append_assoc _ _ _).symm, k2, k3, k4, k5,
    cycle_named (e1 g hmg) hsub, e2 g hmg⟩

/-- The path of moves, and where the first of them lead. -/
theorem track_get (gs : List GCode) (hg : ∀ g ∈ gs, GOK g) (hn : ∀ g ∈ gs, Named g) : ∀ {m : Machine}, Sound m →
    (m.processAll gs).2 = none → (track m gs).length = gs.length ∧ ∀ (n : ℕ) (s : Cls × (Axis → ℚ)), (track m gs)[n]? = some s →
      ∃ (hn : n < gs.length) (p : Position), s.1 = gs[n].cls ∧ (m.processAll (gs.take (n + 1))).1.pos = .ok p ∧ p.val = s.2 := by
  induction gs with
  | nil => intro m _ _; exact ⟨rfl, fun n s h => by cases h⟩
  | cons g gs ih =>
    intro m hm h
    have hs := hm.process g (hg g (by simp)) (hn g (by simp))
    rcases hz : m.process g with ⟨m₁, _ | e⟩
    · rw [hz] at hs
      have hstep : ∀ gs, m.processAll (g :: gs) = m₁.processAll gs := by
        intro gs
        conv_lhs => unfold processAll
        rw [hz]; rfl
      rw [hstep] at h
      obtain ⟨k1, k2⟩ := ih (fun x hx => hg x (by simp [hx])) (fun x hx => hn x (by simp [hx])) hs h
      have hpos := pos_ok m₁ hs.wf (not_bad hs)
      unfold track
      rw [hz]
      simp only
      rw [hpos]
      simp only
      refine ⟨by rw [List.length_cons, List.length_cons, k1], ?_⟩
      intro n s hsn
      cases n with
      | zero =>
        rw [List.getElem?_cons_zero] at hsn
        obtain rfl := Option.some.inj hsn
        refine ⟨by simp, ⟨m₁.axes, m₁.absPos.unit, _⟩, rfl, ?_, rfl⟩
        rw [List.take_succ_cons, List.take_zero, hstep]
        exact hpos
      | succ n =>
        rw [List.getElem?_cons_succ] at hsn
        obtain ⟨j1, p, j2, j3, j4⟩ := k2 n s hsn
        refine ⟨by simpa using j1, p, j2, ?_, j4⟩
        rw [List.take_succ_cons, hstep]
        exact j3
    · have : (m.processAll (g :: gs)).2 = some e := by
        conv_lhs => unfold processAll
        rw [hz]; rfl
      rw [this] at h; cases h

/-- **C117**: a program (lines `pre`, `t` and `post`) that `pygcode-norm --canned_expand` finishes on, and a cycle `g` of line `t`,
which the input reaches at `p`.  A machine that reads the printed lines, at the lines printed for `g`, goes from `p` along a path
that drills one hole after the other as `g` asks for (see `Drilled`), and whose rapid moves never enter material that has not been
removed, if the start is above the material and not below the bottom of the holes. -/
theorem C117_program (o : NormOpts) (hr : o.rmGcodes = []) (hi : o.rmInvalid = false) (hce : o.cannedExpand = true) (fuel : ℕ)
    (m : Machine) (hm : Sound m) (hig : m.ignoreInvalid = false) (hax : xyz ⊆ m.axes) (pre : List (List Char)) (t : List Char)
    (post : List (List Char)) (hts : LinesExpand o fuel m (pre ++ t :: post))
    (hd : (o.loop fuel m (pre ++ t :: post)).status = .done) (m₁ : Machine) (h₁ : readLines m pre = (m₁, none)) (l : Line)
    (hl : Line.ofText t = .ok l) (gs : List GCode) (hgs : m₁.blockModalGcodes l.block = .ok gs) (g : GCode)
    (hany : ∃ x ∈ gs, x.word ∈ o.cannedCodes) (befores afters : List GCode)
    (hsp : splitGcodes gs .cannedCycle true = (befores, [g], afters)) (m₂ : Machine) (h₂ : m₁.processAll befores = (m₂, none))
    (p : Position) (hp : m₂.pos = .ok p) :
    ∃ (heads : ℕ → List (List Char)) (path : Path) (b₀ : Machine) (p₀ : Position) (paths : List Path), heads path.length <+: (o.loop fuel m (pre ++ t :: post)).out ∧
      readLines m (heads 0) = (b₀, none) ∧ b₀.pos = .ok p₀ ∧ p₀.val = p.val ∧ Traces m heads path ∧
      path = (if m₂.incremental then dropStill p.val paths.flatten else paths.flatten) ∧ paths.length = reps g ∧
      (∀ (i : ℕ) (q : Path), paths[i]? = some q →
        Drilled g (retractLevel g p m₂.incremental) (bottomLevel g p m₂.incremental) (feedDepths q) ∧
        ∀ s ∈ q, s.1 = .linearMove →
          s.2 .X = holeAt g m₂.incremental (p.val .X) .X i ∧ s.2 .Y = holeAt g m₂.incremental (p.val .Y) .Y i) ∧
      ∀ cut : ℚ → ℚ → ℚ, (∀ x y, cut x y ≤ retractLevel g p m₂.incremental) → cut (p.val .X) (p.val .Y) ≤ p.val .Z →
        bottomLevel g p m₂.incremental ≤ p.val .Z → SafePath (retractLevel g p m₂.incremental) cut p.val path := by
  rw [loop_append] at hd ⊢
  obtain ⟨d1, d2, d3⟩ := res_done hd
  obtain ⟨ht1, ht2⟩ := linesExpand_append pre (t :: post) h₁ hts
  obtain ⟨k1, b₁, k2, k3, k4, k5⟩ := loop_follows o hr hi hce fuel pre (.refl _ m) hm hm hig hax ht1 d1
  rw [h₁] at k1
  obtain rfl : m₁ = (o.loop fuel m pre).m := congrArg Prod.fst k1
  rw [d3]
  generalize hrr : o.loop fuel m pre = r at *
  obtain ⟨f1, f2, f3⟩ := res_done d2
  have hany' : (o.cannedExpand && gs.any (fun g => decide (g.word ∈ o.cannedCodes))) = true := by
    rw [hce, Bool.true_and, List.any_eq_true]
    obtain ⟨x, hx, hw⟩ := hany
    exact ⟨x, hx, decide_eq_true hw⟩
  have hline : o.line fuel r.m t = o.expandLine fuel r.m gs l.comment := by
    unfold NormOpts.line
    rw [hl]
    simp only [hi, Bool.false_eq_true, if_false]
    rw [hgs]
    simp only
    rw [if_pos hany']
  have hX : Expands o fuel r.m l befores g afters := by
    have := ht2.1 l gs hl hgs
    rw [if_pos hany'] at this
    exact this befores g afters hsp
  rw [hline] at f1
  obtain ⟨m₃, head, tail, p', out, b', q1, q2, q3, q4, q5, q6, q7, q8, q9, q10, q11⟩ :=
    expandLine_head o hr fuel k3 k4 k5 hl hgs hsp hX f1
  rw [h₂] at q1
  obtain rfl : m₂ = m₃ := congrArg Prod.fst q1
  rw [hp] at q2
  obtain rfl : p = p' := Except.ok.inj q2
  have hax₂ : xyz ⊆ m₂.axes := by
    have := lines_frozen pre hm
    rw [h₁] at this
    have h3 : r.m.axes = m.axes := congrArg Prod.fst this
    rw [q3, h3]; exact hax
  have hE := hX.here
  rw [h₂] at hE
  have hpl := hX.moves p (by rw [h₂]; exact hp)
  rw [h₂] at hpl
  simp only at hpl hE
  obtain ⟨m₄, -, g1, -, -, hmv⟩ := expansion_near fuel q8 hax₂ g q10 q11 hE p hp (planeOf m₂) rfl out q4
  rw [q4] at hpl
  have hpc := hmv.plainCode hpl
  have hgr : ∀ c ∈ out, c.cls.group = some 1 := fun c hc => (isMove_params (hmv c hc).2.2.1).2.1
  have hgok : ∀ c ∈ out, GOK c := fun c hc => (hmv c hc).1
  have hnm : ∀ c ∈ out, Named c := fun c hc => (hmv c hc).2.1
  -- the cycle
  have hpo := hp
  rw [pos_ok m₂ q8.wf (not_bad q8)] at hpo
  have hpax : p.axes = m₂.axes := by rw [← Except.ok.inj hpo]
  have hpwf : p.WF := by
    intro a ha
    rw [← Except.ok.inj hpo]
    rw [hpax] at ha
    simp [abs_outside m₂ q8.wf a ha, off_outside m₂ q8.wf a ha, sysOff_outside m₂ q8.wf a ha]
  have hxy : planeOf m₂ = .selectXYPlane := by
    apply xy_table
    by_contra hne
    unfold simplify at q4
    rw [if_neg (by rw [q10.1]; simp), if_pos (by simpa using hne)] at q4
    cases q4
  rw [hxy, ← hpax] at q4
  have hready : Ready m₂ p.axes m₂.incremental p.val :=
    ⟨q8.wf, not_bad q8, q8.sync, hpax.symm, rfl, fun a => by rw [← Except.ok.inj hpo]⟩
  obtain ⟨paths, s1, s2, s3⟩ := C50_depths fuel g q10 p hpwf (by rw [hpax]; exact hax₂) _ _ out q4 m₂ hready
  obtain ⟨t1, t2⟩ := track_get out hgok hnm q8 (by rw [g1])
  have hrd : ∀ us, readLines m (r.out ++ head ++ us) = readLines b' us := by
    intro us
    rw [readLines_append, readLines_append, k2]
    show (Machine.andThen (readLines b₁ head) _) = _
    rw [q6]
    rfl
  refine ⟨fun n => r.out ++ head ++ ((o.omitGen (out, .done)).1.take n).flatMap (fun g => o.writeOne [g] [] none none),
    track m₂ out, b', p, paths, ?_, ?_, ?_, rfl, ?_, s1, s2, s3, ?_⟩
  · show _ <+: r.out ++ ((o.line fuel r.m t).andThen _).out
    rw [f3, hline, q5]
    simp only [List.append_assoc]
    refine (List.prefix_append_right_inj _).2 ((List.prefix_append_right_inj _).2 ?_)
    refine List.IsPrefix.trans ?_ (List.prefix_append _ _)
    conv_rhs => rw [← List.take_append_drop (track m₂ out).length (o.omitGen (out, .done)).1, List.flatMap_append]
    exact List.prefix_append _ _
  · show readLines m (r.out ++ head ++ _) = _
    rw [hrd]
    rfl
  · rw [← q7.near.pos]; exact hp
  · intro n s hs
    obtain ⟨hn, q, u1, u2, u3⟩ := t2 n s hs
    refine ⟨(List.prefix_append_right_inj _).2 (flat_prefix o _ n), ?_, ?_⟩
    · have := one_line o (o.omitGen (out, .done)).1 n
      simp only [List.length_append]
      omega
    · obtain ⟨b₂, v1, v2, v3⟩ := moves_read_motion o hr q9 out hpc hgr (n + 1)
      have hsame : List.Forall₂ SameGCode (out.take (n + 1)) (out.take (n + 1)) :=
        List.forall₂_same.2 (fun x _ => Props.SameGCode.rfl' x)
      have hb2 := (processAll_behind hsame (fun x hx => hgok x (List.mem_of_mem_take hx)) q7 q8.wf q9.wf).1
      refine ⟨b₂, q, by rw [hrd]; exact v1, ?_, u3, ?_⟩
      · rw [← v2.pos, ← hb2.near.pos]; exact u2
      · rw [← v3, List.take_succ_eq_append_getElem hn]
        have hin : ∀ x ∈ out.take n ++ [out[n]], x ∈ out := by
          intro x hx
          rw [← List.take_succ_eq_append_getElem hn] at hx
          exact List.mem_of_mem_take hx
        rw [last_motion (fun x hx => hgok x (hin x hx)) (fun x hx => hnm x (hin x hx)) (hmv _ (List.getElem_mem hn)).2.2.1 q9
          (stays_all (fun x hx => hpc x (List.mem_of_mem_take hx)) q9), u1]
  · intro cut c1 c2 c3
    exact C52_safe fuel g q10 p hpwf (by rw [hpax]; exact hax₂) _ _ out q4 m₂ hready cut c1 c2 (.inr c3)

/-- The cycle of the third line of `expandSample`. -/
def drillHole : GCode :=
  ⟨.drillingCycle, ⟨'G', .num 81⟩, [⟨'X', .num 2⟩, ⟨'Y', .num 3⟩, ⟨'Z', .num (-1)⟩, ⟨'R', .num 2⟩], false⟩

/-- What the theorem asks of the third line of `expandSample`. -/
def drillCheck (m : Machine) (t : List Char) : Bool :=
  match Line.ofText t with
  | .error _ => false
  | .ok l =>
    match m.blockModalGcodes l.block with
    | .error _ => false
    | .ok gs =>
      match splitGcodes gs .cannedCycle true with
      | (befores, [g], _) =>
        decide (g = drillHole) && decide (g ∈ gs) && (m.processAll befores).2.isNone && !(m.processAll befores).1.incremental &&
          decide ((m.processAll befores).1.pos.map (fun p => (p.val .X, p.val .Y, p.val .Z)) = .ok (1, 1, 5))
      | _ => false

theorem drill_spec {m : Machine} {t : List Char} (h : drillCheck m t = true) : ∃ l gs befores afters m₂ p, Line.ofText t = .ok l ∧
    m.blockModalGcodes l.block = .ok gs ∧ splitGcodes gs .cannedCycle true = (befores, [drillHole], afters) ∧ drillHole ∈ gs ∧
    m.processAll befores = (m₂, none) ∧ m₂.incremental = false ∧ m₂.pos = .ok p ∧ p.val .X = 1 ∧ p.val .Y = 1 ∧ p.val .Z = 5 := by
  unfold drillCheck at h
  cases hl : Line.ofText t with
  | error e => rw [hl] at h; cases h
  | ok l =>
    rw [hl] at h
    simp only at h
    cases hgs : m.blockModalGcodes l.block with
    | error e => rw [hgs] at h; cases h
    | ok gs =>
      rw [hgs] at h
      simp only at h
      rcases hsp : splitGcodes gs .cannedCycle true with ⟨befores, mid, afters⟩
      rw [hsp] at h
      rcases mid with - | ⟨g, - | ⟨g', mid⟩⟩
      · cases h
      · simp only [Bool.and_eq_true, decide_eq_true_eq, Option.isNone_iff_eq_none, Bool.not_eq_true'] at h
        obtain ⟨⟨⟨⟨rfl, h1⟩, h2⟩, h3⟩, h5⟩ := h
        cases hp : (m.processAll befores).1.pos with
        | error e => rw [hp] at h5; cases h5
        | ok p =>
          rw [hp] at h5
          have h6 : (p.val .X, p.val .Y, p.val .Z) = (1, 1, 5) := Except.ok.inj h5
          simp only [Prod.mk.injEq] at h6
          exact ⟨l, gs, befores, afters, (m.processAll befores).1, p, rfl, hgs, hsp, h1, Prod.ext rfl h2, h3, hp, h6⟩
      · cases h

/-- The hole of the third line of `expandSample`, read as printed: from (1, 1, 5), one hole at (2, 3) between 2 and -1, with safe
rapid moves wherever the material is not above 2. -/
example : ∃ (heads : ℕ → List (List Char)) (p : Position) (path : Path), p.val .X = 1 ∧ p.val .Y = 1 ∧ p.val .Z = 5 ∧
    heads path.length <+: (expandOpts.loop 20 newNull expandSample).out ∧ Traces newNull heads path ∧
    Drilled drillHole 2 (-1) (feedDepths path) ∧ (∀ s ∈ path, s.1 = .linearMove → s.2 .X = 2 ∧ s.2 .Y = 3) ∧
    SafePath 2 (fun _ _ => 2) p.val path := by
  have hall : linesExpandB expandOpts 20 newNull expandSample = true ∧
      (expandOpts.loop 20 newNull expandSample).status = .done ∧ (readLines newNull (expandSample.take 2)).2 = none ∧
      expandSample = expandSample.take 2 ++ "M8 G81 X2 Y3 Z-1 R2 (drill)".toList :: expandSample.drop 3 ∧
      drillCheck (readLines newNull (expandSample.take 2)).1 "M8 G81 X2 Y3 Z-1 R2 (drill)".toList = true := by decide +kernel
  obtain ⟨h1, h2, h3, hsplit, h5⟩ := hall
  obtain ⟨l, gs, befores, afters, m₂, p, k1, k2, k3, k4, k5, k6, k7, k8, k9, k10⟩ := drill_spec h5
  have h1' := linesExpandB_sound _ h1
  rw [hsplit] at h1' h2
  obtain ⟨heads, path, b₀, p₀, paths, r1, r2, r3, r4, r5, r6, r7, r8, r9⟩ := C117_program expandOpts rfl rfl rfl 20 newNull
    (reader_null xyz).sound rfl (Finset.Subset.refl _) _ _ _ h1' h2 _ (Prod.ext rfl h3) l k1 gs k2 drillHole
    ⟨_, k4, by decide⟩ befores afters k3 m₂ k5 p k7
  rw [← hsplit] at r1
  rw [k6] at r6 r8 r9
  have e1 : retractLevel drillHole p false = 2 := show (drillHole.num? 'R').getD 0 = 2 by decide +kernel
  have e2 : bottomLevel drillHole p false = -1 := show (drillHole.num? 'Z').getD 0 = -1 by decide +kernel
  rw [e1, e2] at r8 r9
  have hr : reps drillHole = 1 := by decide +kernel
  rw [hr] at r7
  obtain ⟨q, rfl⟩ := List.length_eq_one_iff.1 r7
  have hq : path = q := by rw [r6]; simp
  subst hq
  obtain ⟨d1, d2⟩ := r8 0 path rfl
  have ex : given drillHole .X = 2 := by decide +kernel
  have ey : given drillHole .Y = 3 := by decide +kernel
  refine ⟨heads, p, path, k8, k9, k10, r1, r5, d1, fun s hs hl => ?_, r9 _ (fun _ _ => le_refl _) (by rw [k10]; norm_num)
    (by rw [k10]; norm_num)⟩
  have := d2 s hs hl
  simpa [holeAt, ex, ey] using this

end Pygcode
