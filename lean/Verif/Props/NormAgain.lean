import Verif.Props.NormNone

/-!
# C109: `pygcode-norm --canned_expand` on its own output
-/

namespace Pygcode
open Props Machine Spec

/-! ## Specification -/

/-- Line by line the same, but for blanks at the beginning of the first. -/
def SameButIndent (ss ts : List (List Char)) : Prop :=
  List.Forall₂ (fun s t => ∃ n, s = List.replicate n ' ' ++ t) ss ts

/-- The machine's motion mode is none of the listed gcodes. -/
def ModeUnlisted (cc : List Word) (m : Machine) : Prop := ∀ g, m.mode 1 = some g → g.word ∉ cc

/-! ## Moves of an expansion are not empty -/

theorem hole_params (fuel : ℕ) (g : GCode) (z : Except Err ℚ) (toR : Bool) (r b : ℚ) (x y : Option ℚ) :
    ∀ c ∈ (hole fuel g z toR r b x y).1, c.params ≠ [] := by
  have hz : ∀ (p : Prop) [Decidable p] (z : ℚ), ∀ c ∈ (if p then [rapidZ z] else []), c.params ≠ [] := by
    intro p _ z c hc
    split_ifs at hc
    · rw [List.mem_singleton] at hc; subst hc; simp [rapidZ]
    · cases hc
  intro c hc
  unfold hole at hc
  by_cases hrb : r < b
  · rw [if_pos hrb] at hc; cases hc
  · rw [if_neg hrb] at hc
    cases z with
    | error e => cases hc
    | ok z0 =>
      rcases mem_pre hc with hc | hc
      · exact hz _ _ c hc
      · cases x with
        | none => cases hc
        | some x =>
          cases y with
          | none => cases hc
          | some y =>
            rcases mem_pre hc with hc | hc
            · rcases List.mem_cons.1 hc with rfl | hc
              · simp [rapidXY]
              · exact hz _ _ c hc
            · cases hp : passDepth g r b with
              | none => rw [hp] at hc; cases hc
              | some delta =>
                rw [hp] at hc
                rcases mem_andThen hc with hc | hc
                · obtain ⟨z, rfl | rfl⟩ := drill_vertical _ r b delta fuel r c hc <;> simp [rapidZ, feedZ]
                · by_cases hd : g.cls.isSub .drillingCycleDwell = true
                  · rw [if_pos hd] at hc; cases hc
                  · rw [if_neg hd] at hc
                    rw [List.mem_singleton] at hc
                    subst hc; simp [rapidZ]

theorem holes_params (fuel : ℕ) (g : GCode) (start : Position) (incr toR : Bool) (n : ℕ) (x y : ℚ) :
    ∀ c ∈ (holes fuel g start incr toR n x y).1, c.params ≠ [] := by
  induction n generalizing x y with
  | zero => intro c hc; cases hc
  | succ n ih =>
    intro c hc
    rw [holes] at hc
    cases incr with
    | true =>
      simp only [if_true] at hc
      cases hz : start.get .Z with
      | error e => rw [hz] at hc; cases hc
      | ok z0 =>
        rw [hz] at hc
        cases hR : g.num? 'R' <;> cases hZ : g.num? 'Z' <;> cases hX : g.num? 'X' <;> cases hY : g.num? 'Y' <;>
          simp only [hR, hZ, hX, hY] at hc
        case some.some.some.some =>
          rcases mem_andThen hc with hc | hc
          · exact hole_params _ _ _ _ _ _ _ _ c hc
          · exact ih _ _ c hc
        all_goals cases hc
    | false =>
      simp only [Bool.false_eq_true, if_false] at hc
      cases hR : g.num? 'R' <;> cases hZ : g.num? 'Z' <;> simp only [hR, hZ] at hc
      case some.some =>
        rcases mem_andThen hc with hc | hc
        · exact hole_params _ _ _ _ _ _ _ _ c hc
        · exact ih _ _ c hc
      all_goals cases hc

theorem abs2rel_params (m : Machine) (gs : List GCode) (hgs : ∀ g ∈ gs, GOK g ∧ Named g ∧ IsMove g) (s : Status)
    {ax : Finset Axis} {w : Axis → ℚ} (hm : Ready m ax false w) : ∀ c ∈ (abs2relLoop m gs s).1, c.params ≠ [] := by
  induction gs generalizing w m with
  | nil => intro c hc; cases hc
  | cons g gs ih =>
    obtain ⟨hg, hn, hmv⟩ := hgs g List.mem_cons_self
    obtain ⟨m', -, hm', hone⟩ := abs2relOne_move hm g hg hn hmv
    unfold abs2relLoop
    rw [hone]
    intro c hc
    rcases mem_pre hc with hc | hc
    · split_ifs at hc with hnx
      · cases hc
      · rw [List.mem_singleton] at hc
        subst hc
        intro h0
        apply hnx
        have h0 : coordWords ⟨ax, .mm, fun a => next false ax g w a - w a⟩ = [] := h0
        rw [coordWords_nil] at h0
        funext a
        by_cases ha : a ∈ ax
        · exact sub_eq_zero.1 (h0 a ha)
        · unfold next
          simp [ha]
    · exact ih m' (fun x hx => hgs x (List.mem_cons_of_mem _ hx)) hm' c hc

theorem simplify_params (fuel : ℕ) (g : GCode) (hg : IsCycle g) (start : Position) (hw : start.WF) (plane : Cls)
    (incr toR : Bool) : ∀ c ∈ (simplify fuel g start plane incr toR start.axes).1, c.params ≠ [] := by
  unfold simplify
  split_ifs
  · intro c hc; cases hc
  · intro c hc; cases hc
  · obtain ⟨a, ha1, ha⟩ := abs2rel_machine start.axes start rfl hw
    unfold abs2rel
    rw [ha1]
    refine abs2rel_params _ _ ?_ _ ha
    rw [inner_eq fuel g hg]
    exact holes_moves _ _ _ _ _ _ _ _
  · rw [inner_eq fuel g hg]
    exact holes_params _ _ _ _ _ _ _ _

/-! ## Printing again -/

/-- What is printed for `s` (if it is printed by `write`): one line, the same but for blanks at the beginning, read
alike, and printed as it is. -/
structure Again (o : NormOpts) (s t : List Char) : Prop where
  line : ∃ l, Line.ofText s = .ok l ∧ o.write l.block.gcodes l.block.modalParams l.comment l.macro? = .ok [t] ∧
    (o.full = true → l.block.modalParams = [] ∧ execSort l.block.gcodes = l.block.gcodes)
  indent : ∃ n, s = List.replicate n ' ' ++ t
  same : o.full = true ∨ o.rmWhitespace = true → t = s
  fixed : Fixed o t
  read : ∀ m : Machine, m.processStr s = m.processStr t
  listed : ∀ cc, Unlisted cc s → Unlisted cc t
  bare : ∀ l, Line.ofText s = .ok l → ∀ l', Line.ofText t = .ok l' → l.comment = l'.comment

theorem Again.of_fixed {o : NormOpts} {t : List Char} (h : Fixed o t) : Again o t t := by
  obtain ⟨l, h1, h2, h3, -⟩ := id h
  refine ⟨⟨l, h1, h2, h3⟩, ⟨0, rfl⟩, fun _ => rfl, h, fun _ => rfl, fun _ h => h, fun l h l' h' => ?_⟩
  rw [h] at h'
  cases h'
  rfl

/-- The line printed with a blanked word. -/
theorem line_indented (g : GCode) (h : PlainCode g) (hgr : g.cls.group = some 1) (hne : g.params ≠ []) :
    (∃ n, { g with ws := true }.str = List.replicate n ' ' ++ joinWith [' '] (g.sortedParams.map Word.str)) ∧
    joinWith [' '] (g.sortedParams.map Word.str) ≠ [] ∧
    ∃ l, Line.ofText { g with ws := true }.str = .ok l ∧ l.block.gcodes = [] ∧
      l.block.modalParams = g.sortedParams ∧ l.comment = none ∧ l.macro? = none := by
  have hstr : { g with ws := true }.str =
      List.replicate g.word.str.length ' ' ++ g.sortedParams.flatMap (fun w => ' ' :: w.str) := rfl
  rw [hstr]
  have hmem : ∀ w ∈ g.sortedParams, w ∈ g.params := fun w hw => (sortedParams_perm g).mem_iff.1 hw
  have hpl : ∀ w ∈ g.sortedParams, PlainWord w := fun w hw => h.words w (List.mem_cons_of_mem _ (hmem w hw))
  have hnone : ∀ w ∈ g.sortedParams, wordClass w = none := fun w hw =>
    wordClass_param g.cls h.notCanned hgr w (h.gok.2 w (hmem w hw))
  have hne' : g.sortedParams ≠ [] := by
    intro h0
    apply hne
    have := sortedParams_perm g
    rw [h0] at this
    exact this.symm.eq_nil
  generalize hS : g.sortedParams = ps at hmem hpl hnone hne'
  cases ps with
  | nil => exact absurd rfl hne'
  | cons w ps =>
    have hfl : (w :: ps).flatMap (fun w => ' ' :: w.str) = ' ' :: joinWith [' '] ((w :: ps).map Word.str) := by
      clear hS hmem hpl hnone hne'
      induction ps generalizing w with
      | nil => simp [joinWith]
      | cons v ps ih =>
        rw [List.flatMap_cons, ih v]
        simp [joinWith]
    rw [hfl]
    set J := joinWith [' '] ((w :: ps).map Word.str) with hJ
    have hJs : NoSpecial J := plain_noSpecial _ hpl
    have hT : List.replicate g.word.str.length ' ' ++ ' ' :: J = List.replicate (g.word.str.length + 1) ' ' ++ J := by
      rw [List.replicate_succ', List.append_assoc]; rfl
    rw [hT]
    have hne : J ≠ [] := by
      intro h0
      rw [hJ] at h0
      cases ps <;> simp [joinWith, Word.str] at h0
    have hlast : ∀ x ∈ (List.replicate (g.word.str.length + 1) ' ' ++ J).getLast?, isSpace x = false := by
      rw [List.getLast?_append_of_ne_nil _ hne]
      apply join_last
      intro s hs
      obtain ⟨v, hv, rfl⟩ := List.mem_map.1 hs
      exact ⟨by simp [Word.str], plain_str_no_blank (hpl v hv)⟩
    obtain ⟨u, hparts, hub⟩ := parts_printed (List.replicate (g.word.str.length + 1) ' ' ++ J) _ none none
      ((noSpecial_blank _).append hJs) hlast (.inl rfl) trivial (by simp) (.inl rfl)
    simp only [Option.map_none, Option.toList_none, List.append_nil, joinWith] at hparts
    have hre := print_reread [] (w :: ps) (List.replicate (g.word.str.length + 1) ' ') u (blank_replicate _) hub
      (by simp) (by simp) List.Pairwise.nil (by simp) hnone (by simp) (by simpa using hpl) (by
        rintro ⟨i, j, a, b, -, ha, -⟩; simp at ha)
    simp only [List.map_nil, List.nil_append] at hre
    refine ⟨⟨_, rfl⟩, hne, ?_⟩
    unfold Line.ofText
    rw [hparts]
    simp only
    rw [← hJ] at hre
    rw [hre]
    exact ⟨_, rfl, rfl, rfl, rfl, rfl⟩

/-- A line with a single gcode, its word blanked or not. -/
theorem written_again (o : NormOpts) (hr : o.rmGcodes = []) (g : GCode) (h : PlainCode g)
    (hgr : g.cls.group = some 1) (hne : g.params ≠ []) (b : Bool) (hb : b = true → o.full = false) :
    ∀ s ∈ o.writeOne [{ g with ws := b }] [] none none, ∃ t, Again o s t := by
  intro s hs
  have hmem : ∀ w ∈ g.sortedParams, w ∈ g.params := fun w hw => (sortedParams_perm g).mem_iff.1 hw
  have hpl : ∀ w ∈ g.sortedParams, PlainWord w := fun w hw => h.words w (List.mem_cons_of_mem _ (hmem w hw))
  have hnone : ∀ w ∈ g.sortedParams, wordClass w = none := fun w hw =>
    wordClass_param g.cls h.notCanned hgr w (h.gok.2 w (hmem w hw))
  cases b with
  | false =>
    have hg : ({ g with ws := false } : GCode) = g := by
      have := h.noWs
      obtain ⟨c, w, p, s⟩ := g
      simp only at this
      subst this; rfl
    rw [hg] at hs
    refine ⟨s, .of_fixed (writeOne_fixed o hr [g] [] none none (fun _ => ⟨rfl, execSort_single g⟩) (by simp)
      (by simpa using (show wordClass g.word = some g.cls from h.named)) (by simpa using h.gok)
      (List.pairwise_singleton _ _) (by simpa using h.noWs) (by simp) (by simp) ?_ (single_conflict g)
      (by split_ifs <;> trivial) (by simp) (.inl rfl) s hs)⟩
    intro w hw
    simp only [List.flatMap_cons, List.flatMap_nil, List.append_nil] at hw
    exact h.words w hw
  | true =>
    have hf := hb rfl
    have fx := writeOne_fixed o hr [] g.sortedParams none none (by simp [hf]) (by simp) (by simp) (by simp)
      (by simp [Ordered]) (by simp) hnone (by simp) (by simpa using hpl) (short_conflict [] (by simp))
      (by split_ifs <;> trivial) (by simp) (.inl rfl)
    by_cases hw : o.rmWhitespace = true
    · have e1 := blanked_text o hr g h hw
      refine ⟨s, .of_fixed (fx s ?_)⟩
      unfold NormOpts.writeOne at hs ⊢
      rwa [e1] at hs
    · obtain ⟨⟨n, hn⟩, hJ, l, l1, l2, l3, l4, l5⟩ := line_indented g h hgr hne
      have hst : ({ g with ws := true } : GCode).str ≠ [] := by simp [GCode.str, Word.str]
      have hs1 : o.lineText [{ g with ws := true }] [] none none = { g with ws := true }.str := by
        unfold NormOpts.lineText
        simp only [hr, if_true, hw, List.map_nil, List.map_cons, List.append_nil, joinWith, Bool.false_eq_true, if_false]
        rw [if_neg hst]
        simp [joinWith]
      have hs2 : o.lineText [] g.sortedParams none none = joinWith [' '] (g.sortedParams.map Word.str) := by
        unfold NormOpts.lineText
        simp only [hr, if_true, hw, List.map_nil, List.nil_append, Bool.false_eq_true, if_false]
        rw [if_neg hJ]
        simp [joinWith]
      have hs' : s = { g with ws := true }.str := by
        unfold NormOpts.writeOne at hs
        rw [hs1, if_neg (by simp [hst])] at hs
        simpa using hs
      subst hs'
      have hw2 : o.writeOne [] g.sortedParams none none = [joinWith [' '] (g.sortedParams.map Word.str)] := by
        unfold NormOpts.writeOne
        rw [hs2, if_neg (by simp [hJ])]
      have hfx := fx _ (by rw [hw2]; exact List.mem_singleton.2 rfl)
      have hre := lineText_reread o hr [] g.sortedParams none none (by simp) (by simp) (by simp [Ordered]) (by simp) hnone
          (by simp) (by simpa using hpl) (short_conflict [] (by simp)) (by split_ifs <;> trivial) (by simp) (.inl rfl)
      rw [hs2] at hre
      refine ⟨_, ⟨l, l1, ?_, by simp [hf]⟩, ⟨n, hn⟩, by simp [hf, hw], hfx, ?_, ?_, ?_⟩
      · rw [l2, l3, l4, l5]
        unfold NormOpts.write
        rw [if_neg (by simp [hf]), if_neg (by simp), hw2]
      · intro m
        unfold processStr
        rw [l1, hre]
        simp only [processBlock, l2, l3, List.map_nil]
      · intro cc _
        exact ⟨_, hre, by simp⟩
      · intro k hk k' hk'
        rw [l1] at hk
        rw [hre] at hk'
        cases hk
        cases hk'
        rw [l4]
        split_ifs <;> rfl

/-! ## Lines of the program -/

theorem write_again (o : NormOpts) (hr : o.rmGcodes = []) (l : Line) (gs : List GCode) (mp : List Word)
    (hl : Tidy o l gs mp) (hfull : o.full = true → mp = [] ∧ execSort gs = gs)
    (hcl : ∀ g ∈ gs, wordClass g.word = some g.cls)
    (hg : ∀ g ∈ gs, GOK g) (ho : Ordered gs) (hws : ∀ g ∈ gs, g.ws = false)
    (hm : ∀ w ∈ mp, wordClass w = none)
    (hc : CommentOK l.macro? l.comment)
    (hmac : ∀ m', l.macro? = some m' → ∃ r, m' = '%' :: r ∧ '\n' ∉ r)
    (ls : List (List Char)) (h : o.write gs mp l.comment l.macro? = .ok ls) : ∀ s ∈ ls, ∃ t, Again o s t :=
  fun s hs => ⟨s, .of_fixed (write_fixed o hr l gs mp hl hfull hcl hg ho hws hm hc hmac ls h s hs)⟩

theorem comment_again (o : NormOpts) (hr : o.rmGcodes = []) (c : Option Comment)
    (hc : CommentOK none (if o.rmComments then none else c)) (ls : List (List Char))
    (hls : o.write [] [] c = .ok ls) : ∀ s ∈ ls, ∃ t, Again o s t := by
  unfold NormOpts.write at hls
  rw [if_neg (by simp), if_neg (by simp)] at hls
  cases hls
  intro s hs
  exact ⟨s, .of_fixed (writeOne_fixed o hr [] [] c none (fun _ => ⟨rfl, rfl⟩) (by simp) (by simp) (by simp)
    (by simp [Ordered]) (by simp) (by simp) (by simp) (by simp) (short_conflict _ (by simp)) hc (by simp) (.inl rfl) s hs)⟩

theorem putProcess_again (o : NormOpts) (hr : o.rmGcodes = []) {m : Machine}
    (gs : List GCode) (hcl : ∀ g ∈ gs, wordClass g.word = some g.cls)
    (hg : ∀ g ∈ gs, GOK g) (ho : Ordered gs) (hws : ∀ g ∈ gs, g.ws = false) (hso : execSort gs = gs)
    (hp : ∀ w ∈ gs.flatMap (fun x => x.word :: x.params), PlainWord w) (hc : o.singles = false → ¬ Conflict gs)
    (hd : (o.putProcess m gs).status = .done) : ∀ s ∈ (o.putProcess m gs).out, ∃ t, Again o s t := by
  unfold NormOpts.putProcess at hd ⊢
  by_cases hz : gs = []
  · rw [if_pos hz]; simp
  rw [if_neg hz] at hd ⊢
  obtain ⟨h1, h2, h3, -⟩ := done_andThen hd
  rw [h3, ofM_out, List.append_nil]
  obtain ⟨ls, k1, k2, -⟩ := put_done h1
  rw [k2]
  exact write_again o hr ⟨⟨[], [], []⟩, none, none⟩ gs []
    ⟨by simpa using hp, fun _ _ => rfl, hc, by simp, .inr (.inl rfl)⟩ (fun _ => ⟨rfl, hso⟩) hcl hg ho hws (by simp)
    trivial (by simp) ls k1

theorem expansion_again (o : NormOpts) (hr : o.rmGcodes = []) (fuel : ℕ)
    {m : Machine} (hm : Sound m) (hax : xyz ⊆ m.axes) (g : GCode) (hok : GOK g)
    (hn : Named g) (hsub : g.cls.isSub .cannedCycle = true) (he : Expandable m g)
    (hmv : ∀ p, m.pos = .ok p → ∀ c ∈ (simplify fuel g p (planeOf m) m.incremental false m.axes).1,
      ∀ w ∈ c.word :: c.params, PlainWord w) (hd : (o.putExpansion fuel m g).status = .done) :
    ∀ s ∈ (o.putExpansion fuel m g).out, ∃ t, Again o s t := by
  have hcy := cycle_named hn hsub
  unfold NormOpts.putExpansion at hd ⊢
  cases hp : m.pos with
  | error e => rw [hp] at hd; cases hd
  | ok p =>
    rw [hp] at hd
    simp only at hd ⊢
    rw [putAll_eq] at hd ⊢
    have hex : o.expansion fuel m p g = o.omitGen (simplify fuel g p (planeOf m) m.incremental false m.axes) := rfl
    rw [hex] at hd ⊢
    have hpl := hmv p hp
    have hnep : ∀ c ∈ (simplify fuel g p (planeOf m) m.incremental false m.axes).1, c.params ≠ [] := by
      have hpo := hp
      rw [pos_ok m hm.wf (not_badSys hm.dict)] at hpo
      have hpax : p.axes = m.axes := by rw [← Except.ok.inj hpo]
      have hpwf : p.WF := by
        intro a ha
        rw [← Except.ok.inj hpo]
        rw [hpax] at ha
        simp [abs_outside m hm.wf a ha, off_outside m hm.wf a ha, sysOff_outside m hm.wf a ha]
      rw [← hpax]
      exact simplify_params fuel g hcy p hpwf (planeOf m) m.incremental false
    cases hs : simplify fuel g p (planeOf m) m.incremental false m.axes with
    | mk out st =>
      rw [hs] at hd hpl hnep
      simp only at hpl hd hnep
      have hst : st = .done := by
        unfold NormOpts.omitGen at hd
        split_ifs at hd
        · exact hd
        · unfold Gen.andThen at hd
          cases hq : (omitFrom newNull out).2 with
          | done => rw [hq] at hd; exact hd
          | _ => rw [hq] at hd; simp only at hd; rw [hq] at hd; cases hd
      subst hst
      obtain ⟨m₁, m₂, h1, h2, h3, h4⟩ := expansion_near fuel hm hax g hcy hok he p hp (planeOf m) rfl out hs
      have hpc := h4.plainCode hpl
      have hgr : ∀ c ∈ out, c.cls.group = some 1 := fun c hc => (isMove_params (h4 c hc).2.2.1).2.1
      have hout : ∃ out', (o.omitGen (out, .done)).1 = out' ∧ List.Forall₂ Omitted out out' ∧
          (o.full = true → out' = out) := by
        unfold NormOpts.omitGen
        by_cases hf : o.full = true
        · rw [if_pos hf]
          exact ⟨out, rfl, List.forall₂_same.2 (fun g hg => ⟨rfl, rfl, rfl, fun _ => hgr g hg⟩), fun _ => rfl⟩
        · rw [if_neg hf]
          obtain ⟨out', e1, e2, e3⟩ := C47_same out hpc
          have e1' : omitFrom newNull out = (out', .done) := e1
          refine ⟨out', ?_, e2, fun h => absurd h hf⟩
          rw [e1']
          simp [Gen.andThen]
      obtain ⟨out', e1, e2, e3⟩ := hout
      rw [e1]
      intro t ht
      obtain ⟨x, hx, ht⟩ := List.mem_flatMap.1 ht
      obtain ⟨c, hc, c1, c2, c3, -⟩ := omitted_mem e2 x hx
      have hx' : x = { c with ws := x.ws } := by
        obtain ⟨a, w, p, s⟩ := x
        simp only at c1 c2 c3
        subst c1 c2 c3; rfl
      have hf : x.ws = true → o.full = false := by
        intro hw
        by_contra hf
        rw [Bool.not_eq_false] at hf
        rw [e3 hf] at hx
        rw [(h4 x hx).2.2.2] at hw
        cases hw
      rw [hx'] at ht
      exact written_again o hr c (hpc c hc) (hgr c hc) (hnep c hc) _ hf t ht

theorem expandLine_again (o : NormOpts) (hr : o.rmGcodes = []) (fuel : ℕ)
    {m : Machine} (hm : Sound m) (hax : xyz ⊆ m.axes) {t : List Char} {l : Line}
    (hl : Line.ofText t = .ok l) {gs : List GCode} (hgs : m.blockModalGcodes l.block = .ok gs)
    (hx : ∀ befores g afters, splitGcodes gs .cannedCycle true = (befores, [g], afters) →
      Expands o fuel m l befores g afters)
    (hd : (o.expandLine fuel m gs l.comment).status = .done) :
    ∀ s ∈ (o.expandLine fuel m gs l.comment).out, ∃ t, Again o s t := by
  obtain ⟨e1, e2, e3, e4, e5, e6⟩ := effective_ok hl hm.ok hm.named hgs
  have hso : gs.Pairwise (fun a b => a.cls.order ≤ b.cls.order) := by
    have := (execSort_stable gs).2.1
    rw [e5] at this
    exact this
  obtain ⟨c1, -⟩ := line_comment_ok hl
  unfold NormOpts.expandLine at hd ⊢
  split at hd
  swap
  · cases hd
  rename_i befores g afters hsp
  obtain ⟨ha, hsub⟩ := split_append hsp
  have hX := hx befores g afters hsp
  rw [e5] at ha
  have hmb : ∀ x ∈ befores, x ∈ gs := fun x hx => by rw [ha]; simp [hx]
  have hmg : g ∈ gs := by rw [ha]; simp
  have hma : ∀ x ∈ afters, x ∈ gs := fun x hx => by rw [ha]; simp [hx]
  have sb : befores.Sublist gs := by rw [ha]; exact List.sublist_append_left _ _
  have sa : afters.Sublist gs := by
    rw [ha]; exact (List.sublist_cons_self g afters).trans (List.sublist_append_right _ _)
  have f1 := putProcess_follows o hr (Behind.refl o.cannedCodes m) hm hm befores (fun x hx => e1 x (hmb x hx))
    (fun x hx => e2 x (hmb x hx)) (e3.sublist sb) (fun x hx => e4 x (hmb x hx)) (execSort_of_pairwise (hso.sublist sb))
    hX.plainB hX.conflictB
  obtain ⟨d1, d2, d3, -⟩ := done_andThen hd
  obtain ⟨g1, b₁, -, -, s1, -⟩ := f1 d1
  have u1 := putProcess_again o hr (m := m) befores (fun x hx => e1 x (hmb x hx))
    (fun x hx => e2 x (hmb x hx)) (e3.sublist sb) (fun x hx => e4 x (hmb x hx)) (execSort_of_pairwise (hso.sublist sb))
    hX.plainB hX.conflictB d1
  have hm1 : (o.putProcess m befores).m = (m.processAll befores).1 := by rw [g1]
  have hax₁ : xyz ⊆ (m.processAll befores).1.axes := by
    have : (m.processAll befores).1.axes = m.axes :=
      congrArg Prod.fst (processAll_frozen (fun x hx => e2 x (hmb x hx)) hm.wf)
    rw [this]; exact hax
  rw [d3]
  rw [hm1] at d2 s1 ⊢
  have hhere := hX.here
  have hmv := hX.moves
  generalize (m.processAll befores).1 = m₁ at d2 s1 hax₁ hhere hmv ⊢
  clear hd d1 d3 f1 g1 hm1
  obtain ⟨d1, d2, d3, -⟩ := done_andThen d2
  obtain ⟨ls, w1, w2, w3⟩ := put_done d1
  have u2 := comment_again o hr _ (by
      split_ifs
      · trivial
      · exact expanded_comment g hX.plainG) ls w1
  rw [d3]
  rw [w3] at d2 ⊢
  rw [w2]
  clear d1 d3 w1 w2 w3
  obtain ⟨d1, d2, d3, -⟩ := done_andThen d2
  have u3 := expansion_again o hr fuel s1 hax₁ g (e2 g hmg) (e1 g hmg) hsub hhere hmv d1
  rw [d3, putExpansion_m]
  rw [putExpansion_m] at d2
  clear d1 d3
  obtain ⟨d1, d2, d3, -⟩ := done_andThen d2
  rw [d3, ofM_out, List.nil_append]
  generalize (NormRes.ofM (m₁.processGcodes [g] [])).m = m₂ at d2 ⊢
  clear d1 d3
  obtain ⟨d1, d2, d3, -⟩ := done_andThen d2
  have u4 := putProcess_again o hr (m := m₂) afters (fun x hx => e1 x (hma x hx))
    (fun x hx => e2 x (hma x hx)) (e3.sublist sa) (fun x hx => e4 x (hma x hx)) (execSort_of_pairwise (hso.sublist sa))
    hX.plainA hX.conflictA d1
  rw [d3]
  generalize (o.putProcess m₂ afters).m = m₃ at d2 ⊢
  have u5 : ∀ s ∈ (if l.comment = none then (⟨[], m₃, .done⟩ : NormRes) else NormRes.put m₃ (o.write [] [] l.comment)).out,
      ∃ t, Again o s t := by
    split_ifs at d2 ⊢ with hc
    · simp
    · obtain ⟨ls, w1, w2, -⟩ := put_done d2
      rw [w2]
      refine comment_again o hr _ ?_ ls w1
      split_ifs with hrm
      · trivial
      · refine commentOK_none c1 ?_
        rcases hX.comment with hX | hX | hX
        · exact absurd hX hrm
        · exact .inl hX
        · exact .inr hX
  intro t ht
  simp only [List.mem_append] at ht
  rcases ht with ht | ht | ht | ht | ht
  · exact u1 t ht
  · exact u2 t ht
  · exact u3 t ht
  · exact u4 t ht
  · exact u5 t ht

theorem line_again (o : NormOpts) (hr : o.rmGcodes = []) (hi : o.rmInvalid = false)
    (fuel : ℕ) {m : Machine} (hm : Sound m) (hax : xyz ⊆ m.axes) (t : List Char)
    (ht : LineExpands o fuel m t) (hd : (o.line fuel m t).status = .done) :
    ∀ s ∈ (o.line fuel m t).out, ∃ t, Again o s t := by
  unfold NormOpts.line at hd ⊢
  cases hl : Line.ofText t with
  | error e => rw [hl] at hd; cases hd
  | ok l =>
    rw [hl] at hd
    simp only [hi, Bool.false_eq_true, if_false] at hd ⊢
    cases hgs : m.blockModalGcodes l.block with
    | error e => rw [hgs] at hd; cases hd
    | ok gs =>
      rw [hgs] at hd
      have hx := ht l gs hl hgs
      simp only at hd ⊢
      by_cases hany : (o.cannedExpand && gs.any (fun g => decide (g.word ∈ o.cannedCodes))) = true
      · rw [if_pos hany] at hx hd ⊢
        exact expandLine_again o hr fuel hm hax hl hgs hx hd
      · rw [if_neg hany] at hx hd ⊢
        obtain ⟨e1, e2, e3, e4, e5, e6⟩ := effective_ok hl hm.ok hm.named hgs
        obtain ⟨c1, c2⟩ := line_comment_ok hl
        have hbl := line_block_ok hl
        unfold NormOpts.plainLine at hd ⊢
        obtain ⟨d1, -, d3, -⟩ := done_andThen hd
        rw [d3, ofM_out, List.append_nil]
        obtain ⟨ls, w1, w2, -⟩ := put_done d1
        rw [w2]
        by_cases hf : o.full = true
        · rw [if_pos hf] at hx w1
          exact write_again o hr l gs [] hx (fun _ => ⟨rfl, e5⟩) e1 e2 e3 e4 (by simp) c1 c2 ls w1
        · rw [if_neg hf] at hx w1
          exact write_again o hr l _ _ hx (fun h => absurd h hf) hbl.cls hbl.ok hbl.ordered hbl.ws
            hbl.unused c1 c2 ls w1

theorem loop_again (o : NormOpts) (hr : o.rmGcodes = []) (hi : o.rmInvalid = false) (hce : o.cannedExpand = true)
    (fuel : ℕ) (ts : List (List Char)) : ∀ (m : Machine), Sound m →
    m.ignoreInvalid = false → xyz ⊆ m.axes → LinesExpand o fuel m ts →
    (o.loop fuel m ts).status = .done → ∀ s ∈ (o.loop fuel m ts).out, ∃ t, Again o s t := by
  induction ts with
  | nil => intro m _ _ _ _ _ t ht; cases ht
  | cons t ts ih =>
    intro m hm hig hax hts hd
    unfold NormOpts.loop at hd ⊢
    obtain ⟨d1, d2, d3, -⟩ := done_andThen hd
    obtain ⟨f1, b, -, -, f2, -⟩ := line_follows o hr hi hce fuel (Behind.refl _ m) hm hm hig hax t hts.1 d1
    have hfr := str_frozen hm.wf t
    have hts' := hts.2
    rw [f1] at hfr hts'
    rw [d3]
    intro s hs
    rcases List.mem_append.1 hs with hs | hs
    · exact line_again o hr hi fuel hm hax t hts.1 d1 s hs
    · refine ih _ f2 ((congrArg (fun x => x.2.1) hfr).trans hig) ?_ hts' d2 s hs
      have : (o.line fuel m t).m.axes = m.axes := congrArg Prod.fst hfr
      rw [this]; exact hax

/-! ## The second run -/

theorem modal_word {m : Machine} (hok : ModeOK m.mode) (hn : ModeAll Named m.mode) {mp : List Word}
    (hmp : ∀ w ∈ mp, wordClass w = none) {g : GCode} (h : m.modalGcode mp = .ok (some g)) :
    ∃ x, m.mode 1 = some x ∧ g.word = x.word := by
  by_cases hne : mp = []
  · unfold modalGcode at h; rw [if_pos hne] at h; cases h
  · cases hx : m.mode.motion with
    | none =>
      unfold modalGcode at h
      rw [if_neg hne, hx] at h
      simp only at h
      split_ifs at h
      cases h
    | some x =>
      rw [modalGcode_closed m x hx (hok 1 x hx).2.1 (hn 1 x hx) _ hne hmp] at h
      split_ifs at h
      · cases h
        exact ⟨x, hx, rfl⟩

theorem effective_unlisted {cc : List Word} {m : Machine} (hok : ModeOK m.mode) (hn : ModeAll Named m.mode)
    (hmo : ModeUnlisted cc m) {t : List Char} {l : Line} (hl : Line.ofText t = .ok l)
    (hu : ∀ g ∈ l.block.gcodes, g.word ∉ cc) {gs : List GCode} (hgs : m.blockModalGcodes l.block = .ok gs) :
    ∀ g ∈ gs, g.word ∉ cc := by
  unfold blockModalGcodes at hgs
  cases hm : m.modalGcode l.block.modalParams with
  | error e => rw [hm] at hgs; cases hgs
  | ok og =>
    rw [hm] at hgs
    cases hgs
    intro g hg
    rw [(execSort_stable _).1.mem_iff] at hg
    rcases List.mem_append.1 hg with hg | hg
    · exact hu g hg
    · cases og with
      | none => cases hg
      | some x =>
        have : g = x := by simpa using hg
        subst this
        obtain ⟨y, h1, h2⟩ := modal_word hok hn (line_block_ok hl).unused hm
        rw [h2]
        exact hmo y h1

theorem processAll_unlisted {cc : List Word} {gs : List GCode} (hg : ∀ g ∈ gs, GOK g) (hu : ∀ g ∈ gs, g.word ∉ cc) :
    ∀ {m : Machine}, m.WF → ModeUnlisted cc m → ModeUnlisted cc (m.processAll gs).1 := by
  induction gs with
  | nil => exact fun _ h => h
  | cons g gs ih =>
    intro m hm h
    have hstep : ModeUnlisted cc (m.process g).1 := by
      intro x hx
      rw [process_slot m hm g (hg g (by simp))] at hx
      split_ifs at hx
      · cases hx
        exact hu g (by simp)
      · exact h x hx
    have hwf := (path_process m hm g (hg g (by simp))).wf hm
    unfold processAll andThen
    cases hp : m.process g with
    | mk m' e =>
      rw [hp] at hstep hwf
      cases e with
      | some e => exact hstep
      | none => exact ih (fun x hx => hg x (by simp [hx])) (fun x hx => hu x (by simp [hx])) hwf hstep

/-- A second run over such lines. -/
theorem again_loop (o : NormOpts) (hi : o.rmInvalid = false) (fuel : ℕ) {ss ts : List (List Char)}
    (h : List.Forall₂ (Again o) ss ts) : ∀ (b b' : Machine), b.WF → ModeOK b.mode → ModeAll Named b.mode →
    ModeUnlisted o.cannedCodes b → (∀ s ∈ ss, Unlisted o.cannedCodes s) → readLines b ss = (b', none) →
    o.loop fuel b ss = ⟨ts, b', .done⟩ ∧ readLines b ts = (b', none) := by
  induction h with
  | nil => intro b b' _ _ _ _ _ h; cases h; exact ⟨rfl, rfl⟩
  | @cons s t ss ts h1 _ ih =>
    intro b b' hwf hok hn hmo hu hrd
    unfold readLines andThen at hrd ⊢
    cases hp : b.processStr s with
    | mk m' e =>
      rw [hp] at hrd
      cases e with
      | some e => cases hrd
      | none =>
        simp only at hrd
        have hps := hp
        obtain ⟨l, l1, l2, l3⟩ := h1.line
        obtain ⟨l', l1', hu1⟩ := hu s (by simp)
        rw [l1] at l1'
        cases l1'
        have hcall : (Call.str s).OK b.axes b.absPos.unit := trivial
        have hm' : ((Call.str s).run b).1 = m' := by simp [Call.run, hp]
        have w1 := (path_call b hwf (.str s) hcall).wf hwf
        have w2 := kept_ok.call b hwf (.str s) hcall trivial hok
        have w3 := kept_named.call b hwf (.str s) hcall trivial hn
        rw [hm'] at w1 w2 w3
        unfold processStr at hp
        rw [l1] at hp
        simp only at hp
        obtain ⟨gs, hgs, hgs'⟩ : ∃ gs, b.blockModalGcodes l.block = .ok gs ∧ (o.full = true → gs = l.block.gcodes) := by
          unfold blockModalGcodes
          have hp' := hp
          unfold processBlock processGcodes at hp'
          cases hm : b.modalGcode l.block.modalParams with
          | error e => rw [hm] at hp'; cases hp'
          | ok og =>
            refine ⟨_, rfl, fun hf => ?_⟩
            obtain ⟨k1, k2⟩ := l3 hf
            rw [k1] at hm
            cases hm
            simpa using k2
        obtain ⟨-, e2, -, -, -, e6⟩ := effective_ok l1 hok hn hgs
        have heu := effective_unlisted hok hn hmo l1 hu1 hgs
        have w4 : ModeUnlisted o.cannedCodes m' := by
          have := processAll_unlisted e2 heu hwf hmo
          rw [← e6, hp] at this
          exact this
        have hl : o.line fuel b s = ⟨[t], m', .done⟩ := by
          unfold NormOpts.line
          rw [l1]
          simp only [hi, Bool.false_eq_true, if_false]
          rw [hgs]
          have hany : gs.any (fun g => decide (g.word ∈ o.cannedCodes)) = false := by
            rw [List.any_eq_false]
            intro g hg
            simpa using heu g hg
          simp only [hany, Bool.and_false, Bool.false_eq_true, if_false]
          unfold NormOpts.plainLine
          have hw : (if o.full = true then o.write gs [] l.comment l.macro?
              else o.write l.block.gcodes l.block.modalParams l.comment l.macro?) = .ok [t] := by
            by_cases hfu : o.full = true
            · rw [if_pos hfu, hgs' hfu, ← (l3 hfu).1]; exact l2
            · rw [if_neg hfu]; exact l2
          rw [hw]
          unfold NormRes.put NormRes.andThen
          simp only
          rw [hp]
          simp [NormRes.ofM]
        obtain ⟨i1, i2⟩ := ih m' b' w1 w2 w3 w4 (fun x hx => hu x (by simp [hx])) hrd
        refine ⟨?_, ?_⟩
        · unfold NormOpts.loop
          rw [hl]
          unfold NormRes.andThen
          simp only [i1]
          rfl
        · rw [← h1.read b, hps]
          exact i2

theorem again_exists {o : NormOpts} {ss : List (List Char)} (h : ∀ s ∈ ss, ∃ t, Again o s t) :
    ∃ ts, List.Forall₂ (Again o) ss ts := by
  induction ss with
  | nil => exact ⟨[], .nil⟩
  | cons s ss ih =>
    obtain ⟨t, ht⟩ := h s (by simp)
    obtain ⟨ts, hts⟩ := ih (fun x hx => h x (by simp [hx]))
    exact ⟨t :: ts, .cons ht hts⟩

theorem again_mem {o : NormOpts} {ss ts : List (List Char)} (h : List.Forall₂ (Again o) ss ts) :
    ∀ t ∈ ts, ∃ s ∈ ss, Again o s t := by
  induction h with
  | nil => simp
  | cons h1 _ ih =>
    intro t ht
    rcases List.mem_cons.1 ht with rfl | ht
    · exact ⟨_, by simp, h1⟩
    · obtain ⟨s, hs, h⟩ := ih t ht
      exact ⟨s, by simp [hs], h⟩

/-- **C109**: `pygcode-norm --canned_expand` prints its own output again, line by line the same but for the
blanks that stand for omitted words; a third run prints what the second did. -/
theorem C109_again (o : NormOpts) (hr : o.rmGcodes = []) (hi : o.rmInvalid = false) (hce : o.cannedExpand = true)
    (hcc : OnlyCycles o.cannedCodes) (fuel fuel' : ℕ) (m : Machine) (hm : Sound m) (hig : m.ignoreInvalid = false)
    (hax : xyz ⊆ m.axes) (hmo : ModeUnlisted o.cannedCodes m) (ts : List (List Char)) (hts : LinesExpand o fuel m ts)
    (hone : OneListed o.cannedCodes m ts) (hd : (o.loop fuel m ts).status = .done) :
    (o.loop fuel' m (o.loop fuel m ts).out).status = .done ∧
    SameButIndent (o.loop fuel m ts).out (o.loop fuel' m (o.loop fuel m ts).out).out ∧
    (o.loop fuel' m (o.loop fuel' m (o.loop fuel m ts).out).out).out =
      (o.loop fuel' m (o.loop fuel m ts).out).out ∧
    (o.full = true ∨ o.rmWhitespace = true →
      (o.loop fuel' m (o.loop fuel m ts).out).out = (o.loop fuel m ts).out) := by
  obtain ⟨us, hus⟩ := again_exists (loop_again o hr hi hce fuel ts m hm hig hax hts hd)
  have hun := C80_listed o hr hi hce hcc fuel ts m hm hig hax hts hone hd
  obtain ⟨-, b, hb, -⟩ := C67_same_partial o hr hi hce fuel m hm hig hax ts hts hd
  obtain ⟨k1, k2⟩ := again_loop o hi fuel' hus m b hm.wf hm.ok hm.named hmo hun hb
  generalize (o.loop fuel m ts).out = ss at hus hun k1 ⊢
  rw [k1]
  have hfix : List.Forall₂ (Again o) us us := by
    refine List.forall₂_same.2 fun u hu => ?_
    obtain ⟨s, -, hs⟩ := again_mem hus u hu
    exact .of_fixed hs.fixed
  have hun' : ∀ u ∈ us, Unlisted o.cannedCodes u := by
    intro u hu
    obtain ⟨s, hs1, hs⟩ := again_mem hus u hu
    exact hs.listed _ (hun s hs1)
  obtain ⟨k3, -⟩ := again_loop o hi fuel' hfix m b hm.wf hm.ok hm.named hmo hun' k2
  refine ⟨rfl, hus.imp fun _ _ h => h.indent, by simp only [k3], fun hf => ?_⟩
  have : List.Forall₂ (· = ·) us ss := hus.flip.imp fun _ _ h => h.same hf
  exact List.forall₂_eq_eq_eq ▸ this

theorem onlyCyclesB_sound {cc : List Word} (h : cc.all (fun w => match wordClass w with
    | some c => c.isSub .cannedCycle
    | none => false) = true) : OnlyCycles cc := by
  intro w hw
  have := List.all_eq_true.1 h w hw
  cases hc : wordClass w with
  | none => rw [hc] at this; cases this
  | some c => rw [hc] at this; exact ⟨c, rfl, this⟩

/-- The theorem applies to a program with three cycles. -/
example : (defaultOpts.loop 20 newNull (defaultOpts.loop 20 newNull expandSample).out).status = .done ∧
    SameButIndent (defaultOpts.loop 20 newNull expandSample).out
      (defaultOpts.loop 20 newNull (defaultOpts.loop 20 newNull expandSample).out).out := by
  obtain ⟨h1, h2, -⟩ := C109_again defaultOpts rfl rfl rfl (onlyCyclesB_sound (by decide +kernel)) 20 20 newNull
    (reader_null xyz).sound rfl (Finset.Subset.refl _) (fun g h => (nomatch h)) expandSample
    (linesExpandB_sound _ (by decide +kernel)) (oneListedB_sound _ (by decide +kernel)) (by decide +kernel)
  exact ⟨h1, h2⟩

/-- The same options with `--rm_whitespace`. -/
def tightOpts : NormOpts := { defaultOpts with rmWhitespace := true }

/-- With `--rm_whitespace` the output is printed as it is. -/
example : (tightOpts.loop 20 newNull (tightOpts.loop 20 newNull expandSample).out).out =
    (tightOpts.loop 20 newNull expandSample).out ∧ 10 < (tightOpts.loop 20 newNull expandSample).out.length :=
  ⟨(C109_again tightOpts rfl rfl rfl (onlyCyclesB_sound (by decide +kernel)) 20 20 newNull
    (reader_null xyz).sound rfl (Finset.Subset.refl _) (fun g h => (nomatch h)) expandSample
    (linesExpandB_sound _ (by decide +kernel)) (oneListedB_sound _ (by decide +kernel)) (by decide +kernel)).2.2.2
    (.inr rfl), by decide +kernel⟩

/-- Without these options the second run does not print the blanks again. -/
theorem C109_indent : ∃ ts : List (List Char), (defaultOpts.loop 20 newNull ts).status = .done ∧
    (defaultOpts.loop 20 newNull ts).out ≠
      (defaultOpts.loop 20 newNull (defaultOpts.loop 20 newNull ts).out).out ∧
    (defaultOpts.loop 20 newNull ts).out.getLast?.map String.ofList = some "G00 Z5" := by
  refine ⟨["G17 G90", "G0 Z5", "G81 X1 Y1 Z-1 R2"].map String.toList, ?_⟩
  decide +kernel

end Pygcode
