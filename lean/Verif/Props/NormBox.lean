import Verif.Props.NormExpand
import Verif.Lemmas.BoxHole

/-!
# The space visited by what `pygcode-norm --canned_expand` prints (C118)
-/

namespace Pygcode
open Props Machine Spec

/-! ## Specification -/

/-- Levels (work coordinates) that expanding the cycle `g` at `p` adds: above the holes (R), their bottom (Z), and for G73, if one
pass is not enough, 0.5 above the end of the first pass. -/
def cycleLevels (g : GCode) (p : Position) (incr : Bool) : List ℚ :=
  let r := retractLevel g p incr
  let b := bottomLevel g p incr
  [r, b] ++
    if g.cls = .drillingCycleChipBreaking then
      match g.num? 'Q' with
      | none => []
      | some q => if b < r - |q| then [r - |q| + 1 / 2] else []
    else []

/-- The same in machine coordinates, where the machine reaches the cycle. -/
def levelsAt (m : Machine) (g : GCode) : List ℚ :=
  match m.pos with
  | .error _ => []
  | .ok p => (cycleLevels g p m.incremental).map (· + (m.absPos.val .Z - p.val .Z))

/-- Levels added by a line: those of its cycle, if it is expanded. -/
def lineLevels (o : NormOpts) (m : Machine) (t : List Char) : List ℚ :=
  match Line.ofText t with
  | .error _ => []
  | .ok l =>
    match m.blockModalGcodes l.block with
    | .error _ => []
    | .ok gs =>
      if o.cannedExpand && gs.any (fun g => decide (g.word ∈ o.cannedCodes)) then
        match splitGcodes gs .cannedCycle true with
        | (befores, [g], _) => levelsAt (m.processAll befores).1 g
        | _ => []
      else []

/-- Levels added by lines, as they are reached. -/
def programLevels (o : NormOpts) (m : Machine) : List (List Char) → List ℚ
  | [] => []
  | t :: ts => lineLevels o m t ++ programLevels o (m.processStr t).1 ts

/-! ## Steps -/

/-- Reading what was printed extends the range to the levels `L`, beyond that of the script's machine. -/
def Broad (m b : Machine) (r : NormRes) (L : List ℚ) : Prop :=
  r.status = .done → ∀ E, Wider E m b → Wider (E ++ L) r.m (readLines b r.out).1

theorem Broad.andThen {cc : List Word} {m b : Machine} {r : NormRes} {x : MRes} (h : Follows cc b r x) {L L' : List ℚ}
    (hw : Broad m b r L) {f : Machine → NormRes}
    (hf : ∀ b', x.2 = none → Behind cc x.1 b' → Sound x.1 → Sound b' → Broad x.1 b' (f x.1) L') :
    Broad m b (r.andThen f) (L ++ L') := by
  obtain ⟨out, m', s⟩ := r
  cases s with
  | done =>
    obtain ⟨rfl, b', h1, h2, h3, h4⟩ := h rfl
    intro hd E hE
    have k1 := hw rfl E hE
    have k2 := hf b' rfl h2 h3 h4 hd (E ++ L)
    simp only at h1 k1 k2
    rw [h1] at k1
    have k3 := k2 k1
    rw [List.append_assoc] at k3
    show Wider _ (f m').m (readLines b (out ++ (f m').out)).1
    rw [readLines_append, h1]
    exact k3
  | raised e => intro hd; cases hd
  | _ => intro hd; cases hd

theorem Broad.nil (m b : Machine) : Broad m b ⟨[], m, .done⟩ [] := by
  intro _ E hE
  rw [List.append_nil]
  exact hE

theorem Wider.alike {E : List ℚ} {m b b' : Machine} (h : Wider E m b) (ha : Alike b b') : Wider E m b' :=
  h.congr (fun a _ => by rw [ha.lo]) (fun a _ => by rw [ha.hi])

theorem putProcess_broad (o : NormOpts) (hr : o.rmGcodes = []) {cc : List Word} {m b : Machine} (h : Behind cc m b)
    (hm : Sound m) (hb : Sound b) (gs : List GCode) (hcl : ∀ g ∈ gs, wordClass g.word = some g.cls)
    (hg : ∀ g ∈ gs, GOK g) (ho : Ordered gs) (hws : ∀ g ∈ gs, g.ws = false) (hst : execSort gs = gs)
    (hp : ∀ w ∈ gs.flatMap (fun x => x.word :: x.params), PlainWord w) (hc : o.singles = false → ¬ Conflict gs) :
    Broad m b (o.putProcess m gs) [] := by
  unfold NormOpts.putProcess
  by_cases hz : gs = []
  · rw [if_pos hz]; exact .nil m b
  rw [if_neg hz]
  obtain ⟨ls, hw, hal⟩ := write_read o hr (Alike.refl b) hb.wf hb.ok hb.named ⟨⟨[], [], []⟩, none, none⟩ gs []
    ⟨by simpa using hp, fun _ _ => rfl, hc, by simp, .inr (.inl rfl)⟩ (fun _ => rfl) hcl hg ho hws (by simp)
    trivial (by simp)
  simp only at hw
  rw [hw]
  rw [processGcodes_sorted, hst] at hal
  intro hd E hE
  have k := hE.all h.near hm.wf hb.wf (forall₂_refl gs) hg
  unfold NormRes.put NormRes.andThen at hd ⊢
  simp only [List.append_nil] at hd ⊢
  rw [processGcodes_sorted, hst] at hd ⊢
  generalize m.processAll gs = x at *
  obtain ⟨x, _ | e⟩ := x
  · simp only [NormRes.ofM, List.append_nil]
    exact k.alike hal.1
  · simp [NormRes.ofM] at hd

theorem comment_broad (o : NormOpts) (hr : o.rmGcodes = []) {m b : Machine} (hb : Sound b) (c : Option Comment)
    (hc : CommentOK none (if o.rmComments then none else c)) : Broad m b (NormRes.put m (o.write [] [] c)) [] := by
  have := writeOne_read o hr (Alike.refl b) hb.ok hb.named [] [] c none (by simp) (by simp) (by simp [Ordered]) (by simp)
    (by simp) (by simp) (by simp) (short_conflict [] (by simp)) hc (by simp) (.inl rfl)
  intro _ E hE
  unfold NormOpts.write
  rw [if_neg (by simp), if_neg (by simp), List.append_nil]
  have e : b.processGcodes [] [] = (b, none) := rfl
  rw [e] at this
  exact hE.alike this.1

/-- A line that is not expanded. -/
theorem plainLine_broad (o : NormOpts) (hr : o.rmGcodes = []) {cc : List Word} {m b : Machine}
    (h : Behind cc m b) (hm : Sound m) (hb : Sound b) (hig : m.ignoreInvalid = false)
    {t : List Char} {l : Line} (hl : Line.ofText t = .ok l) {gs : List GCode} (hgs : m.blockModalGcodes l.block = .ok gs)
    (hno : ∀ g ∈ gs, g.word ∉ cc)
    (htd : if o.full then Tidy o l gs [] else Tidy o l l.block.gcodes l.block.modalParams) :
    Broad m b (o.plainLine m l gs) [] := by
  obtain ⟨e1, e2, e3, e4, e5, e6⟩ := effective_ok hl hm.ok hm.named hgs
  obtain ⟨c1, c2⟩ := line_comment_ok hl
  have hbk := line_block_ok hl
  have hmot : l.block.modalParams = [] ∨ Option.Rel SameGCode (m.mode 1) (b.mode 1) := by
    by_cases hne : l.block.modalParams = []
    · exact .inl hne
    right
    unfold blockModalGcodes at hgs
    rcases h.motion with hx | ⟨x, hx, hxc⟩ | hx
    · have : m.modalGcode l.block.modalParams = .error .invalidState := by
        unfold modalGcode
        rw [if_neg hne, show m.mode.motion = none from hx]
        simp [hig]
      rw [this] at hgs; cases hgs
    · exfalso
      rw [modalGcode_closed m x hx (hm.ok 1 x hx).2.1 (hm.named 1 x hx) _ hne hbk.unused] at hgs
      split_ifs at hgs
      · cases hgs
        refine hno (modalOf x l.block.modalParams) ?_ hxc
        exact (execSort_stable _).1.mem_iff.2 (by simp)
    · exact hx
  have key : ∃ ls, (if o.full = true then o.write gs [] l.comment l.macro?
      else o.write l.block.gcodes l.block.modalParams l.comment l.macro?) = .ok ls ∧
      ∀ E, Wider E m b → Wider E (m.processBlock l.block).1 (readLines b ls).1 := by
    by_cases hf : o.full = true
    · rw [if_pos hf] at htd ⊢
      obtain ⟨ls, hw, hal⟩ := write_read o hr (Alike.refl b) hb.wf hb.ok hb.named l gs [] htd (fun _ => rfl) e1 e2 e3 e4
        (by simp) c1 c2
      refine ⟨ls, hw, fun E hE => ?_⟩
      rw [processGcodes_sorted, e5] at hal
      rw [e6]
      exact (hE.all h.near hm.wf hb.wf (forall₂_refl gs) e2).alike hal.1
    · rw [if_neg hf] at htd ⊢
      obtain ⟨ls, hw, hal⟩ := write_read o hr (Alike.refl b) hb.wf hb.ok hb.named l _ _ htd (fun h => absurd h hf) hbk.cls
        hbk.ok hbk.ordered hbk.ws hbk.unused c1 c2
      refine ⟨ls, hw, fun E hE => ?_⟩
      refine Wider.alike ?_ hal.1
      have hmo : SameModal (m.modalGcode l.block.modalParams) (b.modalGcode l.block.modalParams) := by
        rcases hmot with hm0 | hm0
        · rw [hm0]; exact .none
        · exact modalGcode_motion h.near.ignore hm0 hm.ok hm.named _ hbk.unused
      unfold processBlock processGcodes
      cases hx : m.modalGcode l.block.modalParams with
      | error e =>
        rw [hx] at hmo
        cases hy : b.modalGcode l.block.modalParams with
        | error e' => exact hE
        | ok og => rw [hy] at hmo; exact hmo.elim
      | ok og =>
        rw [hx] at hmo
        cases hy : b.modalGcode l.block.modalParams with
        | error e' => rw [hy] at hmo; exact hmo.elim
        | ok og' =>
          rw [hy] at hmo
          simp only
          have hot : List.Forall₂ SameGCode og.toList og'.toList := by
            change Option.Rel SameGCode og og' at hmo
            cases hmo with
            | none => exact .nil
            | some s => exact .cons s .nil
          exact hE.all h.near hm.wf hb.wf (execSort_same (List.rel_append (forall₂_refl l.block.gcodes) hot))
            (sort_gok hbk.ok (fun g hog => modalGcode_gok (by rw [hx, hog])))
  obtain ⟨ls, hw, k⟩ := key
  intro hd E hE
  have kE := k E hE
  unfold NormOpts.plainLine at hd ⊢
  rw [hw] at hd ⊢
  unfold NormRes.put NormRes.andThen at hd ⊢
  simp only at hd ⊢
  generalize m.processBlock l.block = x at *
  obtain ⟨x, _ | e⟩ := x
  · simp only [NormRes.ofM, List.append_nil]
    exact kE
  · simp [NormRes.ofM] at hd

/-! ## The expansion -/

theorem passLevels_eq (g : GCode) (hg : IsCycle g) (p : Position) (incr : Bool) (delta : ℚ)
    (h : passDepth g (retractLevel g p incr) (bottomLevel g p incr) = some delta) :
    passLevels (g.cls.isSub .drillingCycleChipBreaking) (retractLevel g p incr) (bottomLevel g p incr) delta = cycleLevels g p incr := by
  obtain ⟨-, -, -, -, h5⟩ := cycle_table g.cls hg.1 hg.2
  unfold passLevels cycleLevels
  simp only
  congr 1
  simp only [h5]
  by_cases hc : g.cls = .drillingCycleChipBreaking
  · rw [if_pos hc]
    rcases passDepth_cases g hg (retractLevel g p incr) (bottomLevel g p incr) with ⟨-, e⟩ | ⟨e, -⟩
    · rw [e] at h
      cases hq : g.num? 'Q' with
      | none => rw [hq] at h; cases h
      | some q =>
        rw [hq, Option.map_some, Option.some.injEq] at h
        subst h
        simp only [hc, true_and, ← sub_eq_add_neg]
    · exact absurd (.inr hc) e
  · rw [if_neg hc, if_neg (fun h => hc h.1)]

/-- The moves of an expansion on the reader, the cycle on the script's machine. -/
theorem expansion_wider (fuel : ℕ) {E : List ℚ} {m b : Machine} (hw : Wider E m b) (h : NearTo m b) (hm : Sound m) (hb : Sound b)
    (hax : xyz ⊆ m.axes) (g : GCode) (hok : GOK g) (hcy : IsCycle g) (he : Expandable m g) (p : Position) (hp : m.pos = .ok p)
    (out : List GCode) (hs : simplify fuel g p (planeOf m) m.incremental false m.axes = (out, .done)) {out' : List GCode}
    (hso : List.Forall₂ SameGCode out out') :
    Wider (E ++ levelsAt m g) (m.process g).1 (b.processAll out').1 := by
  obtain ⟨m₁, m₂, h1, h2, h3, h4⟩ := expansion_near fuel hm hax g hcy hok he p hp (planeOf m) rfl out hs
  have hgok : ∀ c ∈ out, GOK c := fun c hc => (h4 c hc).1
  obtain ⟨pl, hplane⟩ := Option.ne_none_iff_exists'.1 he.plane
  have hbs := not_badSys hm.dict
  have hpl0 : planeOf m = pl.cls := by unfold planeOf; rw [hplane]
  rw [hpl0] at hs
  have hxy : pl.cls = .selectXYPlane := by
    apply xy_table
    by_contra hne
    unfold simplify at hs
    rw [if_neg (by rw [hcy.1]; simp), if_pos (by simpa using hne)] at hs
    cases hs
  rw [hxy] at hs
  have hr := ready_of_pos hm.wf hbs hm.sync hp
  have hpax : p.axes = m.axes := by
    rw [ready_pos hr] at hp
    exact (congrArg Position.axes (Except.ok.inj hp)).symm
  have hpwf : p.WF := fun a ha => ready_outside hr a (hpax ▸ ha)
  rw [← hpax] at hs hr
  have hax' : xyz ⊆ p.axes := hpax ▸ hax
  have hz : Axis.Z ∈ p.axes := hax' (by decide)
  obtain ⟨inner, i1, i2, -⟩ := simplify_path fuel g hcy p hpwf hax' m.incremental false out hs m hr
  obtain ⟨-, segs, rfl, hl, hsegs⟩ := inner_segs fuel g hcy p hz m.incremental false inner i1
  obtain ⟨m₁', n1, n2, -⟩ := expansion_end fuel g hcy p hpwf hax' m.incremental false out hs m hr
  obtain rfl : m₁ = m₁' := (Prod.mk.inj (h1.symm.trans n1)).1
  rw [if_neg (by have := he.count; omega)] at n2
  have hne : segs ≠ [] := by
    intro h0
    rw [h0] at hl
    have := he.count
    simp at hl; omega
  obtain ⟨seg0, hseg0⟩ : ∃ s, segs[0]? = some s := by
    cases segs with
    | nil => exact absurd rfl hne
    | cons s _ => exact ⟨s, rfl⟩
  obtain ⟨delta, hpd, -, -⟩ := hole_levels fuel g _ _ _ _ _ seg0 (hsegs 0 seg0 hseg0) p.axes hax' p.val rfl
  obtain ⟨s1, s2⟩ := segs_levels fuel g (p.val .Z) _ _ delta hpd _ _ segs hsegs p.axes hax' p.val rfl
  have s2 := s2 hne
  rw [passLevels_eq g hcy p m.incremental delta hpd] at s1 s2
  rw [hl] at s1
  -- the path without the moves that stand still
  have t1 : ∀ s ∈ track m out, s ∈ walk false p.axes p.val segs.flatten := by
    intro s hs
    rw [i2] at hs
    split_ifs at hs
    · exact (dropStill_places _ _).1 s hs
    · exact hs
  have t2 : ∀ s ∈ walk false p.axes p.val segs.flatten, s.2 = p.val ∨ ∃ s' ∈ track m out, s'.2 = s.2 := by
    intro s hs
    rw [i2]
    split_ifs
    · exact (dropStill_places _ _).2 s hs
    · exact .inr ⟨s, hs, rfl⟩
  have hvis := visited_track out (fun c hc => ⟨(h4 c hc).1, (h4 c hc).2.2.1⟩) hr
  have hpm := path_all out hgok m hm.wf
  have hgok' : ∀ c ∈ out', GOK c := by
    intro c hc
    clear hs i2 h1 n1 h4 t1 t2 hvis hpm
    induction hso with
    | nil => cases hc
    | @cons x y l l' hxy' _ ih =>
      rcases List.mem_cons.1 hc with rfl | hc
      · exact hxy'.gok (hgok x (by simp))
      · exact ih (fun z hz => hgok z (by simp [hz])) hc
  have hpb := path_all out' hgok' b hb.wf
  rw [← visitedAll_near hso hgok h hm.wf hb.wf] at hpb
  -- the cycle
  have hct := cycle_table _ hcy.1 hcy.2
  have hn : pl.cls.normalAxis.bind Axis.ofLetter = some .Z := by rw [hxy]; exact C45_normals.1
  obtain ⟨cs, q1, q2, -, q4⟩ := canned_process m hm.sync g hok hct.1 hcy.2 pl hplane .Z hn (hpax ▸ hz) none
    (.inl ⟨he.toStart, rfl⟩)
  have hst := process_stays m hm.wf hm.sync g hok (moving_group _ (.inr (.inr hct.1)))
  have hwm : ({ m with mode := Function.update m.mode 1 (some (copyOf g)) } : Machine).WF :=
    ⟨hm.wf.abs, hm.wf.absWF, hm.wf.sys, hm.wf.off, hm.wf.offWF, hm.wf.lo, hm.wf.hi⟩
  have hbox := fun a ha hin => moves_box cs q1 (loops g) ({ m with mode := Function.update m.mode 1 (some (copyOf g)) } : Machine)
    hwm hbs q2 a ha hin
  rw [← q4] at hbox
  rw [h2] at hbox hst ⊢
  rw [h1] at hpm
  simp only at hst ⊢
  intro a ha
  rw [hst.axes] at ha
  obtain ⟨hin, w1, w2⟩ := hw a ha
  obtain ⟨b1, b2⟩ := hbox a ha hin
  simp only at b1 b2
  obtain ⟨r1, r2⟩ := path_range hpb a (h.axes ▸ ha)
  have habs : m₂.absPos.val a = m₁.absPos.val a := by rw [h3.abs]
  -- offsets
  have hoff : ∀ a, m.absPos.val a = p.val a + (m.sysOff a + m.state.offset.val a) := by
    intro a
    have := hr.at_ a
    linarith
  have hst1 := processAll_stays (m := m) hgok (fun c hc => (isMove_params (h4 c hc).2.2.1).2.1) hm.wf hm.sync
  rw [h1] at hst1
  have hend : ∀ a, m₁.absPos.val a = placeAt p.val (holeAt g m.incremental (p.val .X) .X (reps g - 1))
      (holeAt g m.incremental (p.val .Y) .Y (reps g - 1)) (finalZ false (retractLevel g p m.incremental) (p.val .Z)) a +
      (m.sysOff a + m.state.offset.val a) := by
    intro a
    have := n2.at_ a
    have e1 : m₁.sysOff a = m.sysOff a := by unfold Machine.sysOff; rw [show m₁.state = m.state from hst1.state]
    rw [e1, show m₁.state = m.state from hst1.state] at this
    linarith
  have hlv : levelsAt m g = (cycleLevels g p m.incremental).map (· + (m.sysOff .Z + m.state.offset.val .Z)) := by
    unfold levelsAt
    rw [hp]
    simp only
    have : m.absPos.val .Z - p.val .Z = m.sysOff .Z + m.state.offset.val .Z := by rw [hoff]; ring
    rw [this]
  have hal : along (E ++ levelsAt m g) a = along E a ++ along (levelsAt m g) a := by
    unfold along; split_ifs <;> rfl
  have main := step_box hin (along E a) ((visitedAll m out).map (fun p => p.val a)) (along (levelsAt m g) a) (e := m₂.absPos.val a)
    (by
      rw [habs, path_last hpm]
      rcases List.mem_cons.1 (List.getLast_mem (l := m.absPos :: visitedAll m out) (by simp)) with hx | hx
      · exact .inl (by rw [hx])
      · exact .inr (List.mem_map.2 ⟨_, hx, rfl⟩))
    (by
      intro y hy
      rw [hvis a] at hy
      obtain ⟨s, hsm, rfl⟩ := List.mem_map.1 hy
      obtain ⟨c1, c2, c3, c4⟩ := s1 s (t1 s hsm)
      rw [habs, hend a, hoff a]
      generalize hk : m.sysOff a + m.state.offset.val a = k
      have sh : ∀ x y z : ℚ, (min x y ≤ z ∧ z ≤ max x y) → min (x + k) (y + k) ≤ z + k ∧ z + k ≤ max (x + k) (y + k) := by
        intro x y z hxyz
        rw [min_add_add_right, max_add_add_right]
        exact ⟨by linarith [hxyz.1], by linarith [hxyz.2]⟩
      by_cases hX : a = .X
      · subst hX
        rcases c2 with c2 | ⟨i, hi, c2⟩
        · exact .inl (by rw [c2])
        · refine .inr (.inl ?_)
          rw [c2]
          exact sh _ _ _ (holeAt_between g _ _ _ i _ hi)
      by_cases hY : a = .Y
      · subst hY
        rcases c3 with c3 | ⟨i, hi, c3⟩
        · exact .inl (by rw [c3])
        · refine .inr (.inl ?_)
          rw [c3]
          exact sh _ _ _ (holeAt_between g _ _ _ i _ hi)
      by_cases hZ : a = .Z
      · subst hZ
        rcases c4 with c4 | ⟨⟨v, hv, c4⟩, v', hv', c5⟩
        · exact .inl (by rw [c4])
        · refine .inr (.inr ?_)
          unfold along
          rw [if_pos rfl, hlv, hk]
          exact ⟨⟨v + k, List.mem_map.2 ⟨v, hv, rfl⟩, by linarith⟩, ⟨v' + k, List.mem_map.2 ⟨v', hv', rfl⟩, by linarith⟩⟩
      · exact .inl (by rw [c1 a hX hY hZ]))
    (by
      intro v hv
      unfold along at hv
      split_ifs at hv with hZ
      · subst hZ
        rw [hlv] at hv
        obtain ⟨u, hu, rfl⟩ := List.mem_map.1 hv
        rw [hvis .Z, hoff .Z]
        rcases s2 u hu with e | ⟨s, hsm, e⟩
        · exact .inl (by rw [e])
        · rcases t2 s hsm with e' | ⟨s', hs', e'⟩
          · exact .inl (by rw [← e, e'])
          · exact .inr (List.mem_map.2 ⟨s', hs', by rw [e', e]⟩)
      · cases hv)
  refine ⟨?_, ?_, ?_⟩
  · rw [b1, b2]; exact ⟨min_le_right _ _, le_max_right _ _⟩
  · rw [r1, w1, b1, hal]; exact main.1
  · rw [r2, w2, b2, hal]; exact main.2

theorem Wider.reader {E : List ℚ} {m b : Machine} (hw : Wider E m b) (h : NearTo m b) (hb : Sound b) : Reader b :=
  ⟨hb.wf, hb.ok, hb.named, hb.noWs, hb.sync, hb.dict, fun a ha => by
    obtain ⟨h1, h2, h3⟩ := hw a (h.axes ▸ ha)
    rw [h2, h3, ← h.abs]
    exact ⟨(leastOf_le (.inl rfl)).trans h1.1, h1.2.trans (le_greatestOf (.inl rfl))⟩⟩

/-- The expansion as it is printed. -/
theorem expansion_broad (o : NormOpts) (hr : o.rmGcodes = []) (fuel : ℕ) {cc : List Word} {m b : Machine}
    (h : Behind cc m b) (hm : Sound m) (hb : Sound b) (hax : xyz ⊆ m.axes) (g : GCode) (hok : GOK g)
    (hn : Named g) (hsub : g.cls.isSub .cannedCycle = true) (he : Expandable m g)
    (hmv : ∀ p, m.pos = .ok p → ∀ c ∈ (simplify fuel g p (planeOf m) m.incremental false m.axes).1,
      ∀ w ∈ c.word :: c.params, PlainWord w) :
    Broad m b ((o.putExpansion fuel m g).andThen (fun m => .ofM (m.processGcodes [g] []))) (levelsAt m g) := by
  intro hd E hE
  have hcy := cycle_named hn hsub
  unfold NormOpts.putExpansion at hd ⊢
  cases hp : m.pos with
  | error e => rw [hp] at hd; cases hd
  | ok p =>
    rw [hp] at hd
    simp only at hd ⊢
    rw [putAll_eq] at hd ⊢
    have hex : o.expansion fuel m p g = o.omitGen (simplify fuel g p (planeOf m) m.incremental false m.axes) := rfl
    rw [hex] at hd ⊢
    have hpl := hmv p hp
    cases hs : simplify fuel g p (planeOf m) m.incremental false m.axes with
    | mk out st =>
      rw [hs] at hd hpl
      simp only at hpl
      have hdone : (o.omitGen (out, st)).2 = .done := by
        cases hq : (o.omitGen (out, st)).2 with
        | done => rfl
        | _ => rw [hq] at hd; cases hd
      obtain rfl : st = .done := by
        unfold NormOpts.omitGen at hdone
        split_ifs at hdone
        · exact hdone
        · unfold Gen.andThen at hdone
          cases hq : (omitFrom newNull out).2 with
          | done => rw [hq] at hdone; exact hdone
          | _ => rw [hq] at hdone; simp only at hdone; rw [hq] at hdone; cases hdone
      obtain ⟨m₁, m₂, h1, h2, h3, h4⟩ := expansion_near fuel hm hax g hcy hok he p hp (planeOf m) rfl out hs
      have hpc := h4.plainCode hpl
      have hgr : ∀ c ∈ out, c.cls.group = some 1 := fun c hc => (isMove_params (h4 c hc).2.2.1).2.1
      have hread : readLines b (out.map GCode.str) = b.processAll (out.map canon) := read_lines_plain b out hpc
      have hmain := expansion_wider fuel hE h.near hm hb hax g hok hcy he p hp out hs (forall₂_canon out)
      rw [← hread] at hmain
      have hsame : ∀ a ∈ (m.process g).1.axes,
          (readLines b (out.map GCode.str)).1.rangeMin.val a = (readLines b ((o.omitGen (out, .done)).1.flatMap
            (fun g => o.writeOne [g] [] none none))).1.rangeMin.val a ∧
          (readLines b (out.map GCode.str)).1.rangeMax.val a = (readLines b ((o.omitGen (out, .done)).1.flatMap
            (fun g => o.writeOne [g] [] none none))).1.rangeMax.val a := by
        intro a ha
        unfold NormOpts.omitGen
        by_cases hf : o.full = true
        · rw [if_pos hf]
          simp only
          rw [written_lines o hr (List.forall₂_same.2 (fun g _ => ⟨rfl, rfl, rfl, fun hw => by
            rename_i hg'; rw [(hpc g hg').noWs] at hw; cases hw⟩)) hpc hgr b]
          exact ⟨rfl, rfl⟩
        · rw [if_neg hf]
          obtain ⟨out', e1, e2, e3⟩ := C47_same out hpc
          have e1' : omitFrom newNull out = (out', .done) := e1
          rw [e1']
          have e4 : (Gen.andThen (out', .done) ([], .done)).1 = out' := by simp [Gen.andThen]
          rw [e4, written_lines o hr e2 hpc hgr b]
          obtain ⟨a', c', f1, f2, f3⟩ := e3 b (hE.reader h.near hb) out.length
          rw [List.take_length] at f1
          rw [e2.length_eq, List.take_length] at f2
          have haa : a'.axes = (m.process g).1.axes := by
            have k := (processAll_behind (forall₂_canon out) (fun c hc => (h4 c hc).1) h hm.wf hb.wf).1.near.axes
            rw [← hread, f1, h1] at k
            rw [h2]
            exact k.symm.trans h3.axes.symm
          rw [f1, f2]
          exact ⟨f3.lo a (haa ▸ ha), f3.hi a (haa ▸ ha)⟩
      have hg1 : m.processGcodes [g] [] = (m₂, none) := by
        rw [processGcodes_sorted, execSort_single, processAll_one, h2]
      unfold NormRes.andThen
      rw [hdone]
      simp only [hg1, NormRes.ofM, List.append_nil]
      have := hmain.congr (fun a ha => (hsame a ha).1) (fun a ha => (hsame a ha).2)
      rw [h2] at this
      exact this

/-! ## Lines -/

/-- A line that is expanded. -/
theorem expandLine_broad (o : NormOpts) (hr : o.rmGcodes = []) (fuel : ℕ) {cc : List Word}
    (hcc : ∀ w ∈ o.cannedCodes, w ∈ cc) {m b : Machine} (h : Behind cc m b) (hm : Sound m) (hb : Sound b) (hax : xyz ⊆ m.axes) {t : List Char} {l : Line}
    (hl : Line.ofText t = .ok l) {gs : List GCode} (hgs : m.blockModalGcodes l.block = .ok gs)
    (hx : ∀ befores g afters, splitGcodes gs .cannedCycle true = (befores, [g], afters) →
      Expands o fuel m l befores g afters) :
    Broad m b (o.expandLine fuel m gs l.comment) (match splitGcodes gs .cannedCycle true with
      | (befores, [g], _) => levelsAt (m.processAll befores).1 g
      | _ => []) := by
  obtain ⟨e1, e2, e3, e4, e5, e6⟩ := effective_ok hl hm.ok hm.named hgs
  have hso : gs.Pairwise (fun a b => a.cls.order ≤ b.cls.order) := by
    have := (execSort_stable gs).2.1
    rw [e5] at this
    exact this
  obtain ⟨c1, -⟩ := line_comment_ok hl
  unfold NormOpts.expandLine
  split
  · rename_i befores g afters hsp
    obtain ⟨ha, hsub⟩ := split_append hsp
    have hX := hx befores g afters hsp
    simp only [hsp]
    rw [e5] at ha
    have hmb : ∀ x ∈ befores, x ∈ gs := fun x hx => by rw [ha]; simp [hx]
    have hmg : g ∈ gs := by rw [ha]; simp
    have hma : ∀ x ∈ afters, x ∈ gs := fun x hx => by rw [ha]; simp [hx]
    have sb : befores.Sublist gs := by rw [ha]; exact List.sublist_append_left _ _
    have sa : afters.Sublist gs := by
      rw [ha]; exact (List.sublist_cons_self g afters).trans (List.sublist_append_right _ _)
    have hax₁ : xyz ⊆ (m.processAll befores).1.axes := by
      have : (m.processAll befores).1.axes = m.axes :=
        congrArg Prod.fst (processAll_frozen (fun x hx => e2 x (hmb x hx)) hm.wf)
      rw [this]; exact hax
    have hcg : CommentOK none (if o.rmComments then none else
        some (Comment.brackets ("expanded: ".toList ++ NormOpts.reprText g))) := by
      split_ifs
      · trivial
      · exact expanded_comment g hX.plainG
    have hlast : levelsAt (m.processAll befores).1 g = [] ++ ([] ++ (levelsAt (m.processAll befores).1 g ++ ([] ++ []))) := by simp
    rw [hlast]
    refine Broad.andThen (putProcess_follows o hr h hm hb befores (fun x hx => e1 x (hmb x hx)) (fun x hx => e2 x (hmb x hx))
      (e3.sublist sb) (fun x hx => e4 x (hmb x hx)) (execSort_of_pairwise (hso.sublist sb)) hX.plainB hX.conflictB)
      (putProcess_broad o hr h hm hb befores (fun x hx => e1 x (hmb x hx)) (fun x hx => e2 x (hmb x hx))
      (e3.sublist sb) (fun x hx => e4 x (hmb x hx)) (execSort_of_pairwise (hso.sublist sb)) hX.plainB hX.conflictB) ?_
    intro b₁ _ h₁ hm₁ hb₁
    refine Broad.andThen (comment_follows o hr h₁ hm₁ hb₁ _ hcg) (comment_broad o hr hb₁ _ hcg) ?_
    intro b₂ _ h₂ hm₂ hb₂
    simp only at h₂ hm₂ ⊢
    rw [← NormRes.andThen_assoc]
    refine Broad.andThen (expansion_follows o hr fuel h₂ hm₂ hb₂ hax₁ g (e2 g hmg) (e1 g hmg) hsub (hcc _ hX.asked) hX.here hX.moves)
      (expansion_broad o hr fuel h₂ hm₂ hb₂ hax₁ g (e2 g hmg) (e1 g hmg) hsub hX.here hX.moves) ?_
    intro b₃ _ h₃ hm₃ hb₃
    refine Broad.andThen (putProcess_follows o hr h₃ hm₃ hb₃ afters (fun x hx => e1 x (hma x hx)) (fun x hx => e2 x (hma x hx))
      (e3.sublist sa) (fun x hx => e4 x (hma x hx)) (execSort_of_pairwise (hso.sublist sa)) hX.plainA hX.conflictA)
      (putProcess_broad o hr h₃ hm₃ hb₃ afters (fun x hx => e1 x (hma x hx)) (fun x hx => e2 x (hma x hx))
      (e3.sublist sa) (fun x hx => e4 x (hma x hx)) (execSort_of_pairwise (hso.sublist sa)) hX.plainA hX.conflictA) ?_
    intro b₄ _ h₄ hm₄ hb₄
    split_ifs with hc
    · exact .nil _ b₄
    · refine comment_broad o hr hb₄ _ ?_
      split_ifs with hrm
      · trivial
      · refine commentOK_none c1 ?_
        rcases hX.comment with hX | hX | hX
        · exact absurd hX hrm
        · exact .inl hX
        · exact .inr hX
  · intro hd; cases hd

theorem line_broad (o : NormOpts) (hr : o.rmGcodes = []) (hi : o.rmInvalid = false) (hce : o.cannedExpand = true)
    (fuel : ℕ) {m b : Machine} (h : Behind o.cannedCodes m b) (hm : Sound m) (hb : Sound b)
    (hig : m.ignoreInvalid = false) (hax : xyz ⊆ m.axes) (t : List Char) (ht : LineExpands o fuel m t) :
    Broad m b (o.line fuel m t) (lineLevels o m t) := by
  unfold NormOpts.line lineLevels
  cases hl : Line.ofText t with
  | error e => intro hd; cases hd
  | ok l =>
    simp only [hi, Bool.false_eq_true, if_false]
    cases hgs : m.blockModalGcodes l.block with
    | error e => intro hd; cases hd
    | ok gs =>
      have hx := ht l gs hl hgs
      simp only
      by_cases hany : (o.cannedExpand && gs.any (fun g => decide (g.word ∈ o.cannedCodes))) = true
      · rw [if_pos hany] at hx ⊢
        rw [if_pos hany]
        exact expandLine_broad o hr fuel (fun _ h => h) h hm hb hax hl hgs hx
      · rw [if_neg hany] at hx ⊢
        rw [if_neg hany]
        refine plainLine_broad o hr h hm hb hig hl hgs ?_ hx
        intro g hg hc
        apply hany
        rw [hce, Bool.true_and, List.any_eq_true]
        exact ⟨g, hg, by simpa using hc⟩

theorem loop_broad (o : NormOpts) (hr : o.rmGcodes = []) (hi : o.rmInvalid = false) (hce : o.cannedExpand = true) (fuel : ℕ)
    (ts : List (List Char)) : ∀ {m b : Machine}, Behind o.cannedCodes m b → Sound m → Sound b →
      m.ignoreInvalid = false → xyz ⊆ m.axes → LinesExpand o fuel m ts → Broad m b (o.loop fuel m ts) (programLevels o m ts) := by
  induction ts with
  | nil => exact fun _ _ _ _ _ _ => .nil _ _
  | cons t ts ih =>
    intro m b h hm hb hig hax hts
    unfold NormOpts.loop programLevels
    refine Broad.andThen (line_follows o hr hi hce fuel h hm hb hig hax t hts.1) (line_broad o hr hi hce fuel h hm hb hig hax t hts.1) ?_
    intro b' _ h' hm' hb'
    have hfr := str_frozen hm.wf t
    exact ih h' hm' hb' ((congrArg (fun x => x.2.1) hfr).trans hig)
      (by have : (m.processStr t).1.axes = m.axes := congrArg Prod.fst hfr
          rw [this]; exact hax) hts.2

/-- **C118**: if `pygcode-norm --canned_expand` finishes on lines whose cycles can be replaced (see `Expands`), a machine that
reads what was printed records, along every axis but Z, exactly the range that a machine reading the input records (`lo`, `hi`);
along Z it records that range extended to the levels at which the expanded cycles drill (see `cycleLevels`), and no more. -/
theorem C118_range (o : NormOpts) (hr : o.rmGcodes = []) (hi : o.rmInvalid = false) (hce : o.cannedExpand = true)
    (fuel : ℕ) (m : Machine) (hm : Reader m) (hig : m.ignoreInvalid = false) (hax : xyz ⊆ m.axes)
    (ts : List (List Char)) (hts : LinesExpand o fuel m ts) (hd : (o.loop fuel m ts).status = .done) :
    ∃ a b, readLines m ts = (a, none) ∧ readLines m (o.loop fuel m ts).out = (b, none) ∧
      (∀ x ∈ m.axes, x ≠ .Z → b.rangeMin.val x = a.rangeMin.val x ∧ b.rangeMax.val x = a.rangeMax.val x) ∧
      IsLeast {z | z = a.rangeMin.val .Z ∨ z ∈ programLevels o m ts} (b.rangeMin.val .Z) ∧
      IsGreatest {z | z = a.rangeMax.val .Z ∨ z ∈ programLevels o m ts} (b.rangeMax.val .Z) := by
  obtain ⟨h1, b, h2, h3⟩ := C67_same_partial o hr hi hce fuel m hm.sound hig hax ts hts hd
  have h0 : Wider [] m m := fun a ha => ⟨hm.within a ha, by unfold along; split_ifs <;> rfl, by unfold along; split_ifs <;> rfl⟩
  have hw := loop_broad o hr hi hce fuel ts (.refl _ m) hm.sound hm.sound hig hax hts hd [] h0
  rw [h2, List.nil_append] at hw
  have haxes : (o.loop fuel m ts).m.axes = m.axes := by
    have key : ∀ (ts : List (List Char)) (m : Machine), Sound m → (readLines m ts).1.axes = m.axes := by
      intro ts
      induction ts with
      | nil => exact fun _ _ => rfl
      | cons t ts ih =>
        intro m hm
        have k1 : (m.processStr t).1.axes = m.axes := congrArg Prod.fst (str_frozen hm.wf t)
        have k2 := hm.lines [t]
        rw [readLines_one] at k2
        unfold readLines andThen
        generalize m.processStr t = r at k1 k2
        obtain ⟨r, _ | e⟩ := r
        · exact (ih r k2).trans k1
        · exact k1
    have := key ts m hm.sound
    rw [h1] at this
    exact this
  refine ⟨(o.loop fuel m ts).m, b, h1, h2, ?_, ?_, ?_⟩
  · intro x hx hz
    obtain ⟨-, k1, k2⟩ := hw x (haxes ▸ hx)
    unfold along at k1 k2
    rw [if_neg hz] at k1 k2
    exact ⟨k1, k2⟩
  · obtain ⟨-, k1, -⟩ := hw .Z (haxes ▸ hax (by decide))
    unfold along at k1
    rw [if_pos rfl] at k1
    rw [k1]
    exact leastOf_least _ _
  · obtain ⟨-, -, k2⟩ := hw .Z (haxes ▸ hax (by decide))
    unfold along at k2
    rw [if_pos rfl] at k2
    rw [k2]
    exact greatestOf_greatest _ _

/-! ## Cases -/

/-- The sample drills to -1 and, in incremental mode, to 0; chips are broken in the second program, above R. -/
def chipSample : List (List Char) :=
  ["G17 G90 G21", "G0 X1 Y1 Z1", "G73 X2 Y3 Z0.5 R1 Q0.2", "G80"].map String.toList

/-- Expanding G73. -/
def chipOpts : NormOpts := { cannedExpand := true, cannedCodes := [⟨'G', .num 73⟩] }

example : programLevels expandOpts newNull expandSample = [2, -1, 2, -1, 3, 0] ∧
    programLevels chipOpts newNull chipSample = [1, 1 / 2, 13 / 10] := by decide +kernel

example : ∃ a b, readLines newNull expandSample = (a, none) ∧ readLines newNull (expandOpts.loop 20 newNull expandSample).out = (b, none) ∧
    (∀ x ∈ xyz, x ≠ .Z → b.rangeMin.val x = a.rangeMin.val x ∧ b.rangeMax.val x = a.rangeMax.val x) ∧
    IsLeast {z | z = a.rangeMin.val .Z ∨ z ∈ programLevels expandOpts newNull expandSample} (b.rangeMin.val .Z) ∧
    IsGreatest {z | z = a.rangeMax.val .Z ∨ z ∈ programLevels expandOpts newNull expandSample} (b.rangeMax.val .Z) :=
  C118_range expandOpts rfl rfl rfl 20 newNull (reader_null xyz) rfl (Finset.Subset.refl _) expandSample
    (linesExpandB_sound _ (by decide +kernel)) (by decide +kernel)

/-- Chips are broken above the level R and above the height before: the input stays at Z1, the expansion reaches Z1.3. -/
theorem C118_chip_refuted :
    linesExpandB chipOpts 20 newNull chipSample = true ∧ (chipOpts.loop 20 newNull chipSample).status = .done ∧
      (readLines newNull chipSample).2 = none ∧ (readLines newNull chipSample).1.rangeMax.val .Z = 1 ∧
      (readLines newNull (chipOpts.loop 20 newNull chipSample).out).2 = none ∧
      (readLines newNull (chipOpts.loop 20 newNull chipSample).out).1.rangeMax.val .Z = 13 / 10 := by decide +kernel

end Pygcode
