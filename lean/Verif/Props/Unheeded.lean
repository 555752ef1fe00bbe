import Verif.Props.LineNumbers
import Verif.Props.Published

/-!
# C92: commands that the machine does not carry out

Words for which the machine does nothing at all: a line with them does what it does without them.
-/

namespace Pygcode
open Props Machine Spec

/-! ## Specification -/

/-- The letters and numbers of commands without an effect on the machine and without parameters. -/
def NoEffect (l : Char) (q : ℚ) : Prop :=
  l = 'N' ∨ l = 'O' ∨ (l = 'G' ∧ q ∈ ([28, 281/10, 30, 301/10, 53, 92, 921/10, 922/10, 923/10] : List ℚ)) ∨ (l = 'M' ∧ q = 19)

instance (l : Char) (q : ℚ) : Decidable (NoEffect l q) := by unfold NoEffect; infer_instance

/-- Such words. -/
def Unheeded (w : Word) : Prop := NoEffect w.letter w.num

instance (w : Word) : Decidable (Unheeded w) := by unfold Unheeded; infer_instance

/-! ## Classes -/

/-- No modal group, no effect, no parameters. -/
def Silent (c : Cls) : Prop := c.group = none ∧ c.proc = .nothing ∧ c.params = []

instance (c : Cls) : Decidable (Silent c) := by unfold Silent; infer_instance

/-- The words of silent classes. -/
def IsSilent (w : Word) : Prop := ∃ c, wordClass w = some c ∧ Silent c

instance (w : Word) : Decidable (IsSilent w) :=
  match h : wordClass w with
  | none => isFalse (fun ⟨_, hc, _⟩ => by rw [h] at hc; cases hc)
  | some c => if hs : Silent c then isTrue ⟨c, h, hs⟩ else isFalse (fun ⟨_, hc, hs'⟩ => by
      rw [h] at hc; cases hc; exact hs hs')

theorem silent_iff {w : Word} {c : Cls} (h : wordClass w = some c) : Silent c ↔ Unheeded w := by
  have := claims_check (fun l q c => decide (Silent c ↔ NoEffect l q)) w c h (by decide +kernel) (by
      have h1 : Silent .lineNumber ∧ Silent .programName ∧ ¬ Silent .feedRate ∧ ¬ Silent .spindleSpeed ∧ ¬ Silent .selectTool := by
        decide +kernel
      simp [h1, NoEffect])
    (fun h1 h2 => by
      have hs : ¬ Silent .straightProbe := by decide +kernel
      have hne : ∀ x : ℚ, x ≤ 38 ∨ 39 ≤ x → w.num ≠ x := by
        intro x hx he
        rcases hx with hx | hx <;> linarith
      refine decide_eq_true (iff_of_false hs ?_)
      rintro (h | h | h | h)
      · exact absurd h (by decide)
      · exact absurd h (by decide)
      · have h := h.2
        generalize w.num = q at *
        simp only [List.mem_cons, List.not_mem_nil, or_false] at h
        rcases h with h | h | h | h | h | h | h | h | h <;> rw [h] at h1 h2 <;> first | (norm_num at h1; done) | (norm_num at h2; done)
      · exact absurd h.1 (by decide))
    (by decide +kernel)
  exact of_decide_eq_true this

/-- The word is silent exactly if it is one of those above. -/
theorem isSilent_iff (w : Word) : IsSilent w ↔ Unheeded w := by
  constructor
  · rintro ⟨c, hc, hs⟩
    exact (silent_iff hc).1 hs
  · intro h
    suffices hx : ∃ c, wordClass w = some c by
      obtain ⟨c, hc⟩ := hx
      exact ⟨c, hc, (silent_iff hc).2 h⟩
    obtain ⟨l, v⟩ := w
    rcases h with h | h | ⟨h, h'⟩ | ⟨h, h'⟩
    · exact ⟨_, (number_class _).2 h⟩
    · refine ⟨.programName, (C15_lookup false _ _).2 ⟨.inr (by rw [h]; decide),
        .inr ⟨by decide +kernel, .letter 'O', by decide +kernel, ?_⟩⟩⟩
      unfold Matcher.test
      simp only [beq_iff_eq]
      exact h
    · simp only at h
      subst h
      cases v with
      | str s => exact absurd (show (0 : ℚ) ∈ _ from h') (by decide +kernel)
      | num q =>
        have h' : q ∈ ([28, 281/10, 30, 301/10, 53, 92, 921/10, 922/10, 923/10] : List ℚ) := h'
        have hall : ∀ q ∈ ([28, 281/10, 30, 301/10, 53, 92, 921/10, 922/10, 923/10] : List ℚ),
          (wordClass ⟨'G', .num q⟩).isSome = true := by decide +kernel
        exact Option.isSome_iff_exists.1 (hall q h')
    · simp only at h
      subst h
      cases v with
      | str s => exact absurd (show (0 : ℚ) = 19 from h') (by decide +kernel)
      | num q =>
        have h' : q = 19 := h'
        subst h'
        exact Option.isSome_iff_exists.1 (by decide +kernel)

theorem no_silent_param {w : Word} (h : IsSilent w) (c : Cls) : w.letter ∉ c.params := by
  obtain ⟨d, hd, hs⟩ := h
  have hu := (silent_iff hd).1 hs
  have ht := Cls.forall_of_all (p := fun c => !c.params.contains 'N' && !c.params.contains 'O' && !c.params.contains 'G' &&
    !c.params.contains 'M') (by decide +kernel) c
  simp only [Bool.and_eq_true, Bool.not_eq_true', List.contains_eq_mem, decide_eq_false_iff_not] at ht
  rcases hu with h | h | h | h
  · rw [h]; exact ht.1.1.1
  · rw [h]; exact ht.1.1.2
  · rw [h.1]; exact ht.1.2
  · rw [h.1]; exact ht.2

/-- **C92** (which): a gcode has no modal group, no effect and no parameters exactly if its word is one of those above. -/
theorem C92_which (w : Word) : (∃ c : Cls, wordClass w = some c ∧ c.group = none ∧ c.proc = .nothing ∧ c.params = []) ↔
    Unheeded w := isSilent_iff w

/-! ## Words -/

theorem give_silent (w : Word) (ds : List Desc) :
    give w (ds.filter (fun d => ¬ Silent d.1)) = (give w ds).map (List.filter (fun d => ¬ Silent d.1)) := by
  induction ds with
  | nil => rfl
  | cons d ds ih =>
    obtain ⟨c, x, ps⟩ := d
    by_cases hc : Silent c
    · rw [List.filter_cons_of_neg (by simpa using hc), ih]
      conv_rhs => rw [give]
      rw [if_neg (by rw [hc.2.2]; simp)]
      cases give w ds <;> simp [hc]
    · rw [List.filter_cons_of_pos (by simpa using hc), give, give]
      by_cases hl : w.letter ∈ c.params
      · rw [if_pos hl, if_pos hl, Option.map_some, List.filter_cons_of_pos (by simpa using hc)]
      · rw [if_neg hl, if_neg hl, ih]
        cases give w ds <;> simp [hc]

theorem give_unspoken {w : Word} (h : IsSilent w) (ds : List Desc) : give w ds = none := by
  cases hg : give w ds with
  | none => rfl
  | some es =>
    obtain ⟨-, c, -, -, -, -, -, hl, -⟩ := give_some hg
    exact absurd hl (no_silent_param h c)

theorem dealt_silent (ws : List Word) :
    (dealt (ws.filter (fun w => ¬ IsSilent w))).1 = (dealt ws).1.filter (fun d => ¬ Silent d.1) ∧
    (dealt (ws.filter (fun w => ¬ IsSilent w))).2 = (dealt ws).2 ∧
    (((dealt ws).1.filter (fun d => Silent d.1)).reverse.map (fun d => d.2.1) = ws.filter (fun w => IsSilent w)) ∧
    ∀ d ∈ (dealt ws).1, Silent d.1 → d.2.2 = [] := by
  induction ws using List.reverseRecOn with
  | nil => exact ⟨rfl, rfl, rfl, by simp [dealt]⟩
  | append_singleton ws w ih =>
    obtain ⟨h1, h2, h3, h4⟩ := ih
    have hd : ∀ l, dealt (l ++ [w]) = deal (dealt l) w := fun l => by unfold dealt; rw [List.foldl_append]; rfl
    rw [List.filter_append, List.filter_append, hd]
    by_cases hn : IsSilent w
    · obtain ⟨c, hc, hs⟩ := hn
      have hn : IsSilent w := ⟨c, hc, hs⟩
      have hdw : deal (dealt ws) w = ((c, w, []) :: (dealt ws).1, (dealt ws).2) := by
        unfold deal
        rw [give_unspoken hn, hc]
      rw [hdw, List.filter_cons_of_neg (by simpa using hn), List.filter_nil, List.append_nil]
      refine ⟨?_, h2, ?_, ?_⟩
      · rw [h1]; simp [hs]
      · rw [List.filter_cons_of_pos (by simpa using hs), List.reverse_cons, List.map_append, h3,
          List.filter_cons_of_pos (by simpa using hn)]
        simp
      · intro d hdm hsd
        rcases List.mem_cons.1 hdm with rfl | hdm
        · rfl
        · exact h4 d hdm hsd
    · rw [List.filter_cons_of_pos (by simpa using hn), List.filter_nil, hd, List.filter_cons_of_neg (by simpa using hn),
        List.filter_nil, List.append_nil]
      unfold deal
      rw [h1, h2, give_silent]
      cases hg : give w (dealt ws).1 with
      | some ds =>
        simp only [Option.map_some]
        obtain ⟨d1, c, x, ps, d2, he, rfl, hl, -⟩ := give_some hg
        have hc : ¬ Silent c := fun hc => by rw [hc.2.2] at hl; cases hl
        refine ⟨trivial, trivial, ?_, ?_⟩
        · rw [← h3, he]
          simp [hc]
        · intro d hdm hsd
          rcases List.mem_append.1 hdm with hdm | hdm
          · exact h4 d (by rw [he]; simp [hdm]) hsd
          · rcases List.mem_cons.1 hdm with rfl | hdm
            · exact absurd hsd hc
            · exact h4 d (by rw [he]; simp [hdm]) hsd
      | none =>
        simp only [Option.map_none]
        cases hw : wordClass w with
        | some c =>
          have hc : ¬ Silent c := fun hc => hn ⟨c, hw, hc⟩
          refine ⟨?_, rfl, ?_, ?_⟩
          · simp [hc]
          · rw [← h3]; simp [hc]
          · intro d hdm hsd
            rcases List.mem_cons.1 hdm with rfl | hdm
            · exact absurd hsd hc
            · exact h4 d hdm hsd
        | none => exact ⟨rfl, rfl, h3, h4⟩

theorem words_silent (ws' : List Word) :
    (∀ e, words2gcodes (ws'.filter (fun w => ¬ IsSilent w)) = .error e ↔ words2gcodes ws' = .error e) ∧
    (∀ gs un, words2gcodes (ws'.filter (fun w => ¬ IsSilent w)) = .ok (gs, un) → ∃ gs', words2gcodes ws' = .ok (gs', un) ∧
      gs'.filter (fun g => ¬ IsSilent g.word) = gs ∧
      (gs'.filter (fun g => IsSilent g.word)).map GCode.word = ws'.filter (fun w => IsSilent w)) := by
  obtain ⟨h1, h2, h3, hgood⟩ := dealt_silent ws'
  have hrev : (dealt (ws'.filter (fun w => ¬ IsSilent w))).1.reverse =
      (dealt ws').1.reverse.filter (fun d => ¬ Silent d.1) := by
    rw [h1, List.filter_reverse]
  have hall : ∀ e, makeAll (dealt ws').1.reverse = .error e ↔
      makeAll ((dealt ws').1.reverse.filter (fun d => ¬ Silent d.1)) = .error e := by
    have back : ∀ e, makeAll (dealt ws').1.reverse = .error e →
        ∃ e', makeAll ((dealt ws').1.reverse.filter (fun d => ¬ Silent d.1)) = .error e' := by
      intro e h
      obtain ⟨-, d, hd, hbad⟩ := makeAll_err h
      cases hm : makeAll ((dealt ws').1.reverse.filter (fun d => ¬ Silent d.1)) with
      | error e' => exact ⟨e', rfl⟩
      | ok gs =>
        obtain ⟨-, hok⟩ := makeAll_ok hm
        by_cases hc : Silent d.1
        · exact absurd (by rw [hgood d (by simpa using hd) hc]; simp) hbad
        · exact absurd (hok d (List.mem_filter.2 ⟨hd, by simpa using hc⟩)) hbad
    intro e
    constructor
    · intro h
      obtain ⟨e', h'⟩ := back e h
      rw [h', (makeAll_err h).1, (makeAll_err h').1]
    · intro h
      cases hm : makeAll (dealt ws').1.reverse with
      | error e' => rw [(makeAll_err h).1, (makeAll_err hm).1]
      | ok gs =>
        have := makeAll_filter hm (fun c => decide (¬ Silent c))
        rw [h] at this
        cases this
  constructor
  · intro e
    rw [words2gcodes_dealt, words2gcodes_dealt, hrev]
    cases hm : makeAll (dealt ws').1.reverse with
    | error e' =>
      rw [(hall e').1 hm]
    | ok gs =>
      have := makeAll_filter hm (fun c => decide (¬ Silent c))
      rw [this]
      simp
  · intro gs un h
    rw [words2gcodes_dealt, hrev] at h
    rw [words2gcodes_dealt]
    cases hm : makeAll (dealt ws').1.reverse with
    | error e' => rw [(hall e').1 hm] at h; cases h
    | ok gs' =>
      have hf := makeAll_filter hm (fun c => decide (¬ Silent c))
      have hf' := makeAll_filter hm (fun c => decide (Silent c))
      rw [hf] at h
      cases h
      have hcls : ∀ g ∈ gs', (Silent g.cls ↔ IsSilent g.word) := by
        intro g hg
        have hw : words2gcodes ws' = .ok (gs', (dealt ws').2) := by rw [words2gcodes_dealt, hm]
        have := (C18_params _ _ _ hw g hg).2.2.1
        exact ⟨fun h => ⟨_, this, h⟩, fun ⟨c, hc, hs⟩ => by rw [this] at hc; cases hc; exact hs⟩
      refine ⟨gs', by rw [h2], ?_, ?_⟩
      · apply List.filter_congr
        intro g hg
        simp [hcls g hg]
      · rw [List.filter_congr (q := fun g => decide (Silent g.cls)) (fun g hg => by simp [hcls g hg])]
        rw [List.filter_reverse] at hf'
        obtain ⟨he, -⟩ := makeAll_ok hf'
        rw [he, List.map_map, ← h3]
        rfl

/-! ## Lines -/

theorem silent_idle {g : GCode} (hn : wordClass g.word = some g.cls) (h : IsSilent g.word) : Idle g := by
  obtain ⟨c, hc, hs⟩ := h
  rw [hn] at hc
  cases hc
  exact ⟨hs.1, hs.2.1⟩

/-- **C92** (lines): a line with unheeded words among its words does what it does without them. -/
theorem C92_lines {t t' bs bs' : List Char} {c c' : Option Comment} {mac mac' : Option (List Char)} {ws ws' : List Word}
    (ht : Line.parts t = .ok (bs, c, mac)) (ht' : Line.parts t' = .ok (bs', c', mac'))
    (hw : text2words (cleanText bs) = .ok ws) (hw' : text2words (cleanText bs') = .ok ws')
    (h : ws'.filter (fun w => ¬ Unheeded w) = ws) (hd : (ws'.filter (fun w => Unheeded w)).Nodup)
    {m : Machine} (hm : m.WF) (hs : Synced m) : m.processStr t' = m.processStr t := by
  have hfc : ∀ l : List Word, l.filter (fun w => Unheeded w) = l.filter (fun w => IsSilent w) := fun l =>
    List.filter_congr (fun w _ => by simp [isSilent_iff])
  have hfn : ∀ l : List Word, l.filter (fun w => ¬ Unheeded w) = l.filter (fun w => ¬ IsSilent w) := fun l =>
    List.filter_congr (fun w _ => by simp [isSilent_iff])
  rw [hfn] at h
  rw [hfc] at hd
  obtain ⟨h1, h2⟩ := words_silent ws'
  rw [h] at h1 h2
  unfold processStr Line.ofText
  rw [ht, ht']
  simp only
  unfold Block.ofText
  rw [hw, hw']
  simp only
  cases hg : words2gcodes ws with
  | error e => rw [(h1 e).1 hg]
  | ok r =>
    obtain ⟨gs, un⟩ := r
    obtain ⟨gs', hg', hf, hn⟩ := h2 gs un hg
    rw [hg']
    simp only [if_true]
    have hnamed : ∀ g ∈ gs', wordClass g.word = some g.cls := fun g hm => (C18_params _ _ _ hg' g hm).2.2.1
    have hiff : Block.assertLoop [] [] gs = .ok () ↔ Block.assertLoop [] [] gs' = .ok () := by
      rw [(assertLoop_spec gs [] []).2, (assertLoop_spec gs' [] []).2]
      simp only [List.not_mem_nil, not_false_iff, implies_true, and_self, true_and]
      constructor
      · intro hp
        refine pairwise_split (fun g => decide (IsSilent g.word)) ?_ ?_ ?_
        · have hnd : ((gs'.filter (fun g => decide (IsSilent g.word))).map GCode.word).Nodup := by rw [hn]; exact hd
          unfold List.Nodup at hnd
          rw [List.pairwise_map] at hnd
          refine hnd.imp_of_mem ?_
          intro a b ha _ hab
          refine ⟨hab, fun k hk => ?_⟩
          have hi := silent_idle (hnamed a (List.mem_filter.1 ha).1) (by simpa using (List.mem_filter.1 ha).2)
          rw [hi.1] at hk
          cases hk
        · rw [← hf] at hp
          simpa using hp
        · intro a ha b hb hab
          refine ⟨fun he => hab (by rw [he]), fun k hk => ?_⟩
          by_cases hna : IsSilent a.word
          · rw [(silent_idle (hnamed a ha) hna).1] at hk; cases hk
          · have hnb : IsSilent b.word := by
              by_contra hnb
              exact hab (by simp [hna, hnb])
            rw [(silent_idle (hnamed b hb) hnb).1]
            simp
      · intro hp
        rw [← hf]
        exact hp.filter _
    rcases (assertLoop_spec gs [] []).1 with ha | ha
    · rw [ha, hiff.1 ha]
      simp only
      unfold processBlock
      simp only
      rw [← hf]
      exact C87_idle hm hs gs' un (w2g_gok hg') _ (fun g hm h => silent_idle (hnamed g hm) (by simpa using h))
    · rcases (assertLoop_spec gs' [] []).1 with ha' | ha'
      · rw [hiff.2 ha'] at ha; cases ha
      · rw [ha, ha']

/-- **C92** (offsets): no program changes an offset, whatever it contains (exceptions included); only the selection of the
coordinate system changes. -/
theorem C92_offsets (ts : List (List Char)) {m : Machine} (hm : m.WF) :
    (ts.foldl (fun m t => (m.processStr t).1) m).state.systems = m.state.systems ∧
    (ts.foldl (fun m t => (m.processStr t).1) m).state.offset = m.state.offset := by
  induction ts generalizing m with
  | nil => exact ⟨rfl, rfl⟩
  | cons t ts ih =>
    have hp := path_call m hm (.str t) trivial
    have := ih (hp.wf hm)
    rw [hp.frame.systems, hp.frame.offset] at this
    exact this

/-! ## What users expect -/

/-- A machine with the axes X, Y and Z, in motion mode G0, at X10, with an offset of 5 in X. -/
def shifted : Machine :=
  ⟨xyz, true, (newNull.processStr "G90 G0".toList).1.mode,
    ⟨.dict (fun _ => Position.zero xyz), 1, ⟨xyz, .mm, fun a => if a = .X then 5 else 0⟩⟩,
    ⟨xyz, .mm, fun a => if a = .X then 10 else 0⟩, Position.zero xyz, ⟨xyz, .mm, fun a => if a = .X then 10 else 0⟩⟩

/-- G92 is to set the offset so that the coordinates become the given ones, without a move.  Instead the words that follow
go to the motion mode: the machine moves. -/
theorem C92_offset_refuted : ∃ m', shifted.processStr "G92 X1".toList = (m', none) ∧
    m'.state.offset.val .X = 5 ∧ m'.absPos.val .X = 6 ∧ shifted.absPos.val .X = 10 :=
  ⟨_, Prod.ext rfl (by decide +kernel), by decide +kernel, by decide +kernel, by decide +kernel⟩

/-- G53 is to make the coordinates of its line absolute. -/
theorem C92_absolute_refuted : ∃ m', shifted.processStr "G53 G0 X1".toList = (m', none) ∧ m'.absPos.val .X = 6 :=
  ⟨_, Prod.ext rfl (by decide +kernel), by decide +kernel⟩

/-- G28 is to move to the absolute position in the parameters 5161-5166, by default the origin. -/
theorem C92_home_refuted : ∃ m', shifted.processStr "G28".toList = (m', none) ∧ m'.absPos.val .X = 10 :=
  ⟨_, Prod.ext rfl (by decide +kernel), by decide +kernel⟩

/-! ## Instances -/

example : Unheeded ⟨'G', .num 53⟩ := (C92_which _).1 ⟨.moveInMachineCoords, by decide +kernel⟩
example : ¬ ∃ c : Cls, wordClass ⟨'G', .num 4⟩ = some c ∧ c.group = none ∧ c.proc = .nothing ∧ c.params = [] := fun h =>
  absurd ((C92_which _).1 h) (by decide +kernel)

example : newNull.processStr "N5 G53 G1 X2 M19 Y1".toList = newNull.processStr "G1 X2 Y1".toList :=
  C92_lines (bs := "G1 X2 Y1".toList) (bs' := "N5 G53 G1 X2 M19 Y1".toList) (c := none) (mac := none) (c' := none) (mac' := none)
    (ws := [⟨'G', .num 1⟩, ⟨'X', .num 2⟩, ⟨'Y', .num 1⟩])
    (ws' := [⟨'N', .num 5⟩, ⟨'G', .num 53⟩, ⟨'G', .num 1⟩, ⟨'X', .num 2⟩, ⟨'M', .num 19⟩, ⟨'Y', .num 1⟩])
    (by decide +kernel) (by decide +kernel) (by decide +kernel) (by decide +kernel) (by decide +kernel) (by decide +kernel)
    (newWith_wf _ _) C42_new.2

example : (["G0".toList, "G10 L2 P1 X5".toList, "G92 X7".toList, "bad".toList].foldl (fun m t => (m.processStr t).1) newNull).state.offset
    = newNull.state.offset := (C92_offsets _ (newWith_wf _ _)).2

end Pygcode
