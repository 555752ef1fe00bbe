import Verif.Lemmas.Deal
import Verif.Props.Layout

/-!
# Line numbers change nothing (C87)
-/

namespace Pygcode
open Props Machine Spec

/-- A line number: an N word. -/
def IsNumber (w : Word) : Prop := w.letter = 'N'

instance (w : Word) : Decidable (IsNumber w) := by unfold IsNumber; infer_instance

theorem number_class (w : Word) : wordClass w = some .lineNumber ↔ IsNumber w := by
  constructor
  · intro h
    have := wordClass_letter h
    rw [show classLetters .lineNumber = ['N'] from by decide +kernel] at this
    unfold IsNumber
    simpa using this
  · intro h
    unfold wordClass
    rw [C15_lookup]
    refine ⟨.inr (by rw [h]; decide), .inr ⟨by decide +kernel, .letter 'N', by decide +kernel, ?_⟩⟩
    unfold Matcher.test
    simp only [beq_iff_eq]
    exact h

theorem number_no_param (c : Cls) : 'N' ∉ c.params := by
  have := Cls.forall_of_all (p := fun c => !c.params.contains 'N') (by decide +kernel) c
  simpa using this

theorem number_table : Cls.params .lineNumber = [] ∧ Cls.group .lineNumber = none ∧ Cls.proc .lineNumber = .nothing := by
  decide +kernel

/-! ## Words -/

theorem give_filter (w : Word) (ds : List Desc) :
    give w (ds.filter (fun d => d.1 ≠ .lineNumber)) = (give w ds).map (List.filter (fun d => d.1 ≠ .lineNumber)) := by
  induction ds with
  | nil => rfl
  | cons d ds ih =>
    obtain ⟨c, x, ps⟩ := d
    by_cases hc : c = .lineNumber
    · subst hc
      rw [List.filter_cons_of_neg (by simp), ih]
      conv_rhs => rw [give]
      rw [if_neg (by rw [number_table.1]; simp)]
      cases give w ds <;> simp
    · rw [List.filter_cons_of_pos (by simpa using hc), give, give]
      by_cases hl : w.letter ∈ c.params
      · rw [if_pos hl, if_pos hl, Option.map_some, List.filter_cons_of_pos (by simpa using hc)]
      · rw [if_neg hl, if_neg hl, ih]
        cases give w ds <;> simp [hc]

theorem give_number {w : Word} (h : IsNumber w) (ds : List Desc) : give w ds = none := by
  cases hg : give w ds with
  | none => rfl
  | some es =>
    obtain ⟨-, c, -, -, -, -, -, hl, -⟩ := give_some hg
    rw [h] at hl
    exact absurd hl (number_no_param c)

/-- Gcodes of numbered words: those of the other words, with gcodes for the numbers in between. -/
theorem dealt_numbers (ws : List Word) :
    (dealt (ws.filter (fun w => ¬ IsNumber w))).1 = (dealt ws).1.filter (fun d => d.1 ≠ .lineNumber) ∧
    (dealt (ws.filter (fun w => ¬ IsNumber w))).2 = (dealt ws).2 ∧
    ((dealt ws).1.filter (fun d => d.1 = .lineNumber)).reverse =
      (ws.filter (fun w => IsNumber w)).map (fun w => (Cls.lineNumber, w, [])) := by
  induction ws using List.reverseRecOn with
  | nil => exact ⟨rfl, rfl, rfl⟩
  | append_singleton ws w ih =>
    obtain ⟨h1, h2, h3⟩ := ih
    have hd : ∀ l, dealt (l ++ [w]) = deal (dealt l) w := fun l => by unfold dealt; rw [List.foldl_append]; rfl
    rw [List.filter_append, List.filter_append, hd]
    by_cases hn : IsNumber w
    · have hdw : deal (dealt ws) w = ((.lineNumber, w, []) :: (dealt ws).1, (dealt ws).2) := by
        unfold deal
        rw [give_number hn, (number_class w).2 hn]
      rw [hdw, List.filter_cons_of_neg (by simpa using hn), List.filter_nil, List.append_nil]
      refine ⟨?_, h2, ?_⟩
      · rw [h1]; simp
      · rw [List.filter_cons_of_pos (by simp), List.reverse_cons, h3, List.filter_cons_of_pos (by simpa using hn)]
        simp
    · rw [List.filter_cons_of_pos (by simpa using hn), List.filter_nil, hd, List.filter_cons_of_neg (by simpa using hn),
        List.filter_nil, List.append_nil]
      unfold deal
      rw [h1, h2, give_filter]
      cases hg : give w (dealt ws).1 with
      | some ds =>
        simp only [Option.map_some]
        refine ⟨trivial, trivial, ?_⟩
        obtain ⟨d1, c, x, ps, d2, he, rfl, hl, -⟩ := give_some hg
        have hc : c ≠ .lineNumber := by
          rintro rfl
          rw [number_table.1] at hl
          cases hl
        rw [← h3, he]
        simp [hc]
      | none =>
        simp only [Option.map_none]
        cases hw : wordClass w with
        | some c =>
          have hc : c ≠ .lineNumber := by
            rintro rfl
            exact hn ((number_class w).1 hw)
          refine ⟨?_, rfl, ?_⟩
          · simp [hc]
          · rw [← h3]; simp [hc]
        | none => exact ⟨rfl, rfl, h3⟩

theorem makeAll_filter {ds : List Desc} {gs : List GCode} (h : makeAll ds = .ok gs) (p : Cls → Bool) :
    makeAll (ds.filter (fun d => p d.1)) = .ok (gs.filter (fun g => p g.cls)) := by
  obtain ⟨rfl, hok⟩ := makeAll_ok h
  rw [makeAll_of_ok _ (fun d hd => hok d (List.mem_filter.1 hd).1), List.filter_map]
  rfl

theorem pairwise_split {α : Type} {R : α → α → Prop} (p : α → Bool) {l : List α} (h1 : (l.filter p).Pairwise R)
    (h2 : (l.filter (fun x => !p x)).Pairwise R) (h3 : ∀ a ∈ l, ∀ b ∈ l, p a ≠ p b → R a b) : l.Pairwise R := by
  induction l with
  | nil => exact .nil
  | cons a l ih =>
    have ih' := fun x y => ih x y (fun b hb c hc => h3 b (by simp [hb]) c (by simp [hc]))
    by_cases hp : p a = true
    · rw [List.filter_cons_of_pos hp, List.pairwise_cons] at h1
      rw [List.filter_cons_of_neg (by simpa using hp)] at h2
      refine List.pairwise_cons.2 ⟨fun b hb => ?_, ih' h1.2 h2⟩
      by_cases hq : p b = true
      · exact h1.1 b (List.mem_filter.2 ⟨hb, hq⟩)
      · exact h3 a (by simp) b (by simp [hb]) (by simp [hp, hq])
    · rw [List.filter_cons_of_neg hp] at h1
      rw [List.filter_cons_of_pos (by simpa using hp), List.pairwise_cons] at h2
      refine List.pairwise_cons.2 ⟨fun b hb => ?_, ih' h1 h2.2⟩
      by_cases hq : p b = true
      · exact h3 a (by simp) b (by simp [hb]) (by simp [hp, hq])
      · exact h2.1 b (List.mem_filter.2 ⟨hb, by simpa using hq⟩)

/-- **C87** (words): line numbers anywhere among the words add their gcodes, and change nothing
else: not the other gcodes, not the words left over, not the failures. -/
theorem C87_words {ws ws' : List Word} (h : ws'.filter (fun w => ¬ IsNumber w) = ws) :
    (∀ e, words2gcodes ws = .error e ↔ words2gcodes ws' = .error e) ∧
    (∀ gs un, words2gcodes ws = .ok (gs, un) → ∃ gs', words2gcodes ws' = .ok (gs', un) ∧
      gs'.filter (fun g => ¬ IsNumber g.word) = gs ∧
      (gs'.filter (fun g => IsNumber g.word)).map GCode.word = ws'.filter (fun w => IsNumber w)) := by
  subst h
  obtain ⟨h1, h2, h3⟩ := dealt_numbers ws'
  have hgood : ∀ d ∈ (dealt ws').1, d.1 = .lineNumber → d.2.2 = [] := by
    intro d hd hc
    have : d ∈ ((dealt ws').1.filter (fun d => d.1 = .lineNumber)).reverse :=
      List.mem_reverse.2 (List.mem_filter.2 ⟨hd, by simpa using hc⟩)
    rw [h3] at this
    obtain ⟨w, -, rfl⟩ := List.mem_map.1 this
    rfl
  have hrev : (dealt (ws'.filter (fun w => ¬ IsNumber w))).1.reverse =
      (dealt ws').1.reverse.filter (fun d => d.1 ≠ .lineNumber) := by
    rw [h1, List.filter_reverse]
  have hall : ∀ e, makeAll (dealt ws').1.reverse = .error e ↔
      makeAll ((dealt ws').1.reverse.filter (fun d => d.1 ≠ .lineNumber)) = .error e := by
    have back : ∀ e, makeAll (dealt ws').1.reverse = .error e →
        ∃ e', makeAll ((dealt ws').1.reverse.filter (fun d => d.1 ≠ .lineNumber)) = .error e' := by
      intro e h
      obtain ⟨-, d, hd, hbad⟩ := makeAll_err h
      cases hm : makeAll ((dealt ws').1.reverse.filter (fun d => d.1 ≠ .lineNumber)) with
      | error e' => exact ⟨e', rfl⟩
      | ok gs =>
        obtain ⟨-, hok⟩ := makeAll_ok hm
        by_cases hc : d.1 = .lineNumber
        · exact absurd (by rw [hgood d (by simpa using hd) hc]; simp) hbad
        · exact absurd (hok d (List.mem_filter.2 ⟨hd, by simpa using hc⟩)) hbad
    intro e
    constructor
    · intro h
      obtain ⟨e', h'⟩ := back e h
      rw [h', (makeAll_err h).1, (makeAll_err h').1]
    · intro h
      cases hm : makeAll (dealt ws').1.reverse with
      | error e' => rw [(makeAll_err h).1, (makeAll_err hm).1]
      | ok gs =>
        have := makeAll_filter hm (fun c => decide (c ≠ .lineNumber))
        rw [h] at this
        cases this
  constructor
  · intro e
    rw [words2gcodes_dealt, words2gcodes_dealt, hrev]
    have := hall e
    cases hm : makeAll (dealt ws').1.reverse with
    | error e' =>
      rw [(hall e').1 hm]
    | ok gs =>
      have := makeAll_filter hm (fun c => decide (c ≠ .lineNumber))
      rw [this]
      simp
  · intro gs un h
    rw [words2gcodes_dealt, hrev] at h
    rw [words2gcodes_dealt]
    cases hm : makeAll (dealt ws').1.reverse with
    | error e' => rw [(hall e').1 hm] at h; cases h
    | ok gs' =>
      have hf := makeAll_filter hm (fun c => decide (c ≠ .lineNumber))
      have hf' := makeAll_filter hm (fun c => decide (c = .lineNumber))
      rw [hf] at h
      cases h
      have hcls : ∀ g ∈ gs', (g.cls = .lineNumber ↔ IsNumber g.word) := by
        intro g hg
        have hw : words2gcodes ws' = .ok (gs', (dealt ws').2) := by rw [words2gcodes_dealt, hm]
        have := (C18_params _ _ _ hw g hg).2.2.1
        rw [← number_class, this]
        simp
      refine ⟨gs', by rw [h2], ?_, ?_⟩
      · apply List.filter_congr
        intro g hg
        simp [hcls g hg]
      · rw [List.filter_congr (q := fun g => decide (g.cls = .lineNumber)) (fun g hg => by simp [hcls g hg])]
        rw [List.filter_reverse, h3] at hf'
        obtain ⟨he, -⟩ := makeAll_ok hf'
        rw [he, List.map_map, List.map_map]
        exact List.map_id _

/-! ## Execution -/

/-- A gcode that belongs to no modal group and has no effect of its own. -/
def Idle (g : GCode) : Prop := g.cls.group = none ∧ g.cls.proc = .nothing

instance (g : GCode) : Decidable (Idle g) := by unfold Idle; infer_instance

theorem process_idle {m : Machine} (hs : Synced m) {g : GCode} (hg : Idle g) : m.process g = (m, none) := by
  have h1 : m.setMode [g] = (m, none) := by
    unfold Machine.setMode Mode.setMode
    rw [execSort_single, Mode.setLoop]
    unfold Mode.setOne
    rw [hg.1]
    simp only
    rw [Mode.setLoop]
    simp only
    cases h : m.mode.coordSystem with
    | none => rfl
    | some x => simp only; rw [← hs x h]
  unfold process
  rw [h1]
  unfold andThen effect
  simp only
  rw [hg.2]

theorem processAll_idle (gs : List GCode) (hg : ∀ g ∈ gs, GOK g) (p : GCode → Bool) (hp : ∀ g ∈ gs, p g = false → Idle g) :
    ∀ m : Machine, m.WF → Synced m → m.processAll gs = m.processAll (gs.filter p) := by
  induction gs with
  | nil => intro m _ _; rfl
  | cons g gs ih =>
    intro m hm hs
    have ih' := ih (fun x hx => hg x (by simp [hx])) (fun x hx => hp x (by simp [hx]))
    by_cases h : p g = true
    · rw [List.filter_cons_of_pos h, processAll, processAll]
      have h1 := process_synced m hm g (hg g List.mem_cons_self)
      have h2 := (path_process m hm g (hg g List.mem_cons_self)).wf hm
      unfold andThen
      rcases hq : m.process g with ⟨m', _ | e⟩
      · rw [hq] at h1 h2
        exact ih' m' h2 h1
      · rfl
    · rw [List.filter_cons_of_neg h, processAll, process_idle hs (hp g (by simp) (by simpa using h))]
      exact ih' m hm hs

theorem sort_filter (p : GCode → Bool) (gs : List GCode) : execSort (gs.filter p) = (execSort gs).filter p := by
  refine stableSorted_unique (gs.filter p) _ _ (execSort_stable _) ?_
  obtain ⟨h1, h2, h3⟩ := execSort_stable gs
  refine ⟨h1.filter _, h2.filter _, fun n => ?_⟩
  rw [List.filter_filter, List.filter_filter]
  have := congrArg (List.filter p) (h3 n)
  rw [List.filter_filter, List.filter_filter] at this
  simpa [Bool.and_comm] using this

/-- **C87** (idle gcodes): gcodes without a modal group and without an effect of their own, such as line
numbers, program names, dwells, tool changes and stops, can be left out. -/
theorem C87_idle {m : Machine} (hm : m.WF) (hs : Synced m) (gs : List GCode) (mp : List Word) (hg : ∀ g ∈ gs, GOK g)
    (p : GCode → Bool) (hp : ∀ g ∈ gs, p g = false → Idle g) :
    m.processGcodes gs mp = m.processGcodes (gs.filter p) mp := by
  unfold processGcodes
  cases ho : m.modalGcode mp with
  | error e => rfl
  | ok og =>
    simp only
    have hog : ∀ g ∈ og.toList, GOK g := by
      intro g h
      cases og with
      | none => simp at h
      | some x =>
        obtain rfl : g = x := by simpa using h
        exact modalGcode_gok ho
    let q : GCode → Bool := fun g => p g || !decide (Idle g)
    have hall : ∀ g ∈ gs ++ og.toList, GOK g := fun g h => (List.mem_append.1 h).elim (hg g) (hog g)
    have key : ∀ l : List GCode, (∀ g ∈ l, GOK g) → m.processAll (execSort l) =
        m.processAll (execSort (l.filter (fun g => !decide (Idle g)))) := by
      intro l hl
      rw [sort_filter]
      exact processAll_idle _ (fun g h => hl g ((execSort_stable l).1.mem_iff.1 h)) _ (fun g _ h => by simpa using h) m hm hs
    rw [key _ hall, key (gs.filter p ++ og.toList) (fun g h => hall g (by
      rcases List.mem_append.1 h with h | h
      · exact List.mem_append_left _ (List.mem_filter.1 h).1
      · exact List.mem_append_right _ h))]
    congr 2
    rw [List.filter_append, List.filter_append, List.filter_filter]
    congr 1
    apply List.filter_congr
    intro g h
    by_cases hpg : p g = true
    · simp [hpg]
    · have := hp g h (by simpa using hpg)
      simp [this]

theorem number_idle {g : GCode} (hn : wordClass g.word = some g.cls) (h : IsNumber g.word) : Idle g := by
  rw [(number_class _).2 h] at hn
  have hc : g.cls = .lineNumber := (Option.some.inj hn).symm
  unfold Idle
  rw [hc]
  exact number_table.2

/-- **C87** (lines): a line with different line numbers among its words does what it does without them. -/
theorem C87_lines {t t' bs bs' : List Char} {c c' : Option Comment} {mac mac' : Option (List Char)} {ws ws' : List Word}
    (ht : Line.parts t = .ok (bs, c, mac)) (ht' : Line.parts t' = .ok (bs', c', mac'))
    (hw : text2words (cleanText bs) = .ok ws) (hw' : text2words (cleanText bs') = .ok ws')
    (h : ws'.filter (fun w => ¬ IsNumber w) = ws) (hd : (ws'.filter (fun w => IsNumber w)).Nodup)
    {m : Machine} (hm : m.WF) (hs : Synced m) : m.processStr t' = m.processStr t := by
  obtain ⟨h1, h2⟩ := C87_words h
  unfold processStr Line.ofText
  rw [ht, ht']
  simp only
  unfold Block.ofText
  rw [hw, hw']
  simp only
  cases hg : words2gcodes ws with
  | error e => rw [(h1 e).1 hg]
  | ok r =>
    obtain ⟨gs, un⟩ := r
    obtain ⟨gs', hg', hf, hn⟩ := h2 gs un hg
    rw [hg']
    simp only [if_true]
    have hnamed : ∀ g ∈ gs', wordClass g.word = some g.cls := fun g hm => (C18_params _ _ _ hg' g hm).2.2.1
    have hiff : Block.assertLoop [] [] gs = .ok () ↔ Block.assertLoop [] [] gs' = .ok () := by
      rw [(assertLoop_spec gs [] []).2, (assertLoop_spec gs' [] []).2]
      simp only [List.not_mem_nil, not_false_iff, implies_true, and_self, true_and]
      constructor
      · intro hp
        refine pairwise_split (fun g => decide (IsNumber g.word)) ?_ ?_ ?_
        · have hnd : ((gs'.filter (fun g => decide (IsNumber g.word))).map GCode.word).Nodup := by rw [hn]; exact hd
          unfold List.Nodup at hnd
          rw [List.pairwise_map] at hnd
          refine hnd.imp_of_mem ?_
          intro a b ha _ hab
          refine ⟨hab, fun k hk => ?_⟩
          have hi := number_idle (hnamed a (List.mem_filter.1 ha).1) (by simpa using (List.mem_filter.1 ha).2)
          rw [hi.1] at hk
          cases hk
        · rw [← hf] at hp
          simpa using hp
        · intro a ha b hb hab
          refine ⟨fun he => hab (by rw [he]), fun k hk => ?_⟩
          by_cases hna : IsNumber a.word
          · rw [(number_idle (hnamed a ha) hna).1] at hk; cases hk
          · have hnb : IsNumber b.word := by
              by_contra hnb
              exact hab (by simp [hna, hnb])
            rw [(number_idle (hnamed b hb) hnb).1]
            simp
      · intro hp
        rw [← hf]
        exact hp.filter _
    rcases (assertLoop_spec gs [] []).1 with ha | ha
    · rw [ha, hiff.1 ha]
      simp only
      unfold processBlock
      simp only
      rw [← hf]
      exact C87_idle hm hs gs' un (w2g_gok hg') _ (fun g hm h => number_idle (hnamed g hm) (by simpa using h))
    · rcases (assertLoop_spec gs' [] []).1 with ha' | ha'
      · rw [hiff.2 ha'] at ha; cases ha
      · rw [ha, ha']

theorem pieceWords_letters {ps : List Piece} {r : List Char} {ws : List Word} (h : pieceWords r ps = .ok ws)
    (hN : ∀ p ∈ ps, p.1 ≠ 'N') : ∀ w ∈ ws, ¬ IsNumber w := by
  induction ps generalizing r ws with
  | nil =>
    unfold pieceWords at h
    by_cases hr : r = []
    · rw [if_pos hr] at h; cases h; simp
    · rw [if_neg hr] at h; cases h
  | cons p ps ih =>
    obtain ⟨l, n⟩ := p
    unfold pieceWords at h
    cases hk : wordKind l with
    | none => rw [hk] at h; cases h
    | some k =>
      rw [hk] at h; simp only at h
      cases hm : matchValue k n with
      | none => rw [hm] at h; cases h
      | some q =>
        obtain ⟨v, r'⟩ := q
        rw [hm] at h; simp only at h
        cases hp : pieceWords r' ps with
        | error e => rw [hp] at h; cases h
        | ok us =>
          rw [hp] at h; cases h
          intro w hw
          rcases List.mem_cons.1 hw with rfl | hw
          · exact hN (l, n) (by simp)
          · exact ih hp (fun p hp => hN p (by simp [hp])) w hw

/-- **C87** (texts): a line that starts with a line number does what the rest of the line does, in any layout. -/
theorem C87_texts {ps : List Piece} {s s' t t' n : List Char} (ht : WithComments s t) (ht' : WithComments s' t')
    (h : LaidOut ps s) (h' : LaidOut (('N', n) :: ps) s') (hn : n ≠ [] ∧ ∀ c ∈ n, c.isDigit = true)
    (hO : ∀ p ∈ ps, p.1 ≠ 'O' ∧ p.1 ≠ 'N') {m : Machine} (hm : m.WF) (hs : Synced m) :
    m.processStr t' = m.processStr t := by
  obtain ⟨bs, c, h1, h2⟩ := ht.parts
  obtain ⟨bs', c', h1', h2'⟩ := ht'.parts
  have hl := (h2 ps h).clean
  have hl' := (h2' _ h').clean
  have e1 := lex_layout hl (fun p hp => (hO p hp).1) [] (by simp) ((cleanText bs).length + 1) (by simp)
  have e2 := lex_layout hl' (by
    intro p hp
    rcases List.mem_cons.1 hp with rfl | hp
    · simp
    · exact (hO p hp).1) [] (by simp) ((cleanText bs').length + 1) (by simp)
  rw [List.nil_append] at e1 e2
  have hmv : matchValue .posint n = some (n, []) := by
    have := matchInt_eval (ws := []) (d := n) (r := []) blank_nil hn.2 hn.1 (by simp)
    show matchInt n = _
    simpa using this
  rw [pieceWords, show wordKind 'N' = some .posint from by decide +kernel] at e2
  simp only at e2
  rw [hmv] at e2
  simp only at e2
  cases hp : pieceWords [] ps with
  | error e =>
    rw [hp] at e1 e2
    simp only at e2
    unfold processStr Line.ofText
    rw [h1, h1']
    simp only
    unfold Block.ofText text2words
    rw [e1, e2]
  | ok ws =>
    rw [hp] at e1 e2
    simp only at e2
    have hws : ∀ w ∈ ws, ¬ IsNumber w := pieceWords_letters hp (fun p hp => (hO p hp).2)
    refine C87_lines h1 h1' (ws := ws) (ws' := ⟨'N', mkVal .posint n⟩ :: ws) (by unfold text2words; exact e1)
      (by unfold text2words; exact e2) ?_ ?_ hm hs
    · rw [List.filter_cons_of_neg (by simp [IsNumber]), List.filter_eq_self.2 (fun w hw => by simpa using hws w hw)]
    · rw [List.filter_cons_of_pos (by simp [IsNumber]), List.filter_eq_nil_iff.2 (fun w hw => by simpa using hws w hw)]
      simp

/-- A copied machine does not keep the coordinate system in step with its mode, and there a line number alone
makes the difference between a readable and an unreadable position. -/
theorem C87_copy_refuted : ¬ ∀ (m : Machine) (p : Position), m.WF → m.pos = .ok p →
    ∃ p', (m.processStr "N10".toList).1.pos = .ok p' := by
  intro h
  have h0 := (C42_history [.str "G59.3".toList] newNull (newWith_wf _ _) C42_new.2 (by simp [Call.OK])).2.1
  have hw : (newNull.processStr "G59.3".toList).1.copy.WF := by
    refine ⟨h0.abs, h0.absWF, ?_, h0.off, h0.offWF, h0.lo, h0.hi⟩
    intro f hf
    cases hf
  have hp : ((newNull.processStr "G59.3".toList).1.copy.pos).toOption.isSome = true := by decide +kernel
  cases hq : (newNull.processStr "G59.3".toList).1.copy.pos with
  | error e => rw [hq] at hp; cases hp
  | ok p =>
    obtain ⟨p', hp'⟩ := h _ p hw hq
    have : (((newNull.processStr "G59.3".toList).1.copy.processStr "N10".toList).1.pos).toOption.isSome = false := by
      decide +kernel
    rw [hp'] at this
    cases this

/-! ## Cases -/

theorem inst_numbered : LaidOut (('N', "010".toList) :: instPieces) "n010G1X-2.5T7".toList :=
  .cons (a := []) (b := []) (c := 'n') (n := "010".toList) sep_nil (by unfold IsLetter; decide) (by decide) blank_nil (by simp)
    (by decide) (by unfold IsLetter; decide) inst_tight

example : newNull.processStr "n010G1X-2.5T7;go".toList = newNull.processStr " g 1\t x  -2.5 t7 ".toList :=
  C87_texts
    (.brackets (by decide) (by decide) (by decide) (.plain (fun a b h => by
      have : '(' ∈ " g 1\t x  -2.5 t7 ".toList := by rw [h]; simp
      exact absurd this (by decide))))
    (.semicolon (c := "go".toList) (by decide) (by decide) (by decide)) inst_wide inst_numbered (by decide) (by decide)
    (newWith_wf _ _) C42_new.2

example : newNull.processStr "G91 N7 G1 X2 N8 Y1".toList = newNull.processStr "G91 G1 X2 Y1".toList :=
  C87_lines (bs := "G91 G1 X2 Y1".toList) (bs' := "G91 N7 G1 X2 N8 Y1".toList) (c := none) (mac := none) (c' := none) (mac' := none)
    (ws := [⟨'G', .num 91⟩, ⟨'G', .num 1⟩, ⟨'X', .num 2⟩, ⟨'Y', .num 1⟩])
    (ws' := [⟨'G', .num 91⟩, ⟨'N', .num 7⟩, ⟨'G', .num 1⟩, ⟨'X', .num 2⟩, ⟨'N', .num 8⟩, ⟨'Y', .num 1⟩])
    (by decide +kernel) (by decide +kernel) (by decide +kernel) (by decide +kernel) (by decide +kernel) (by decide +kernel)
    (newWith_wf _ _) C42_new.2

/-- The same number twice is refused, as is any repeated word. -/
example : (newNull.processStr "N7 G1 X2 N7".toList).2 = some .assertion ∧ (newNull.processStr "G1 X2".toList).2 = none := by
  decide +kernel

example := C87_words (ws := [⟨'G', .num 1⟩, ⟨'X', .num 2⟩]) (ws' := [⟨'N', .num 5⟩, ⟨'G', .num 1⟩, ⟨'N', .num 5⟩, ⟨'X', .num 2⟩])
  (by decide +kernel)

example : newNull.processGcodes [⟨.dwell, ⟨'G', .num 4⟩, [⟨'P', .num 2⟩], false⟩, ⟨.linearMove, ⟨'G', .num 1⟩, [⟨'X', .num 3⟩], false⟩] [] =
    newNull.processGcodes [⟨.linearMove, ⟨'G', .num 1⟩, [⟨'X', .num 3⟩], false⟩] [] :=
  C87_idle (newWith_wf _ _) C42_new.2 _ _ (by unfold GOK; decide +kernel) (fun g => decide (g.cls ≠ .dwell)) (by unfold Idle; decide +kernel)

end Pygcode
