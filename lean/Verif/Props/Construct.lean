import Verif.Props.BlockPrint
import Verif.Props.NormExpand

/-!
# C75, C76: lengths of blocks, and gcodes built from their class or from text
-/

namespace Pygcode.Props
open Pygcode Spec Machine

/-! ## C75 -/

/-- **C75**: `len(block)` is the number of gcodes a machine executes for the block. -/
theorem C75_len (m : Machine) (hmo : ∀ g, m.mode.motion = some g → GOK g ∧ Named g) (hi : m.ignoreInvalid = false)
    (b : Block) (hb : ∀ w ∈ b.modalParams, wordClass w = none) (gs : List GCode) (h : m.blockModalGcodes b = .ok gs) :
    gs.length = b.len := by
  unfold blockModalGcodes at h
  have hlen : ∀ og : Option GCode, (execSort (b.gcodes ++ og.toList)).length = b.gcodes.length + og.toList.length := by
    intro og
    unfold execSort
    rw [List.length_insertionSort, List.length_append]
  unfold Block.len
  by_cases hmp : b.modalParams = []
  · rw [if_pos hmp]
    have : m.modalGcode b.modalParams = .ok none := by unfold modalGcode; rw [if_pos hmp]
    rw [this] at h
    rw [← Except.ok.inj h, hlen]
    rfl
  · rw [if_neg hmp]
    cases hm : m.mode.motion with
    | none =>
      have : m.modalGcode b.modalParams = .error .invalidState := by
        unfold modalGcode; rw [if_neg hmp, hm]; simp [hi]
      rw [this] at h
      cases h
    | some g =>
      obtain ⟨h1, h2⟩ := hmo g hm
      rw [modalGcode_closed m g hm h1 h2 _ hmp hb] at h
      split at h
      · cases h
      · rename_i og hog
        split_ifs at hog
        rw [← Except.ok.inj hog] at h
        rw [← Except.ok.inj h, hlen]
        rfl

/-! ## C76 -/

/-- **C76**: the word a class gives its instances by default names that class. -/
theorem C76_default (c : Cls) (w : Word) (h : GCode.defaultWord c = .ok w) : wordClass w = some c := by
  have := Cls.forall_of_all (p := fun c => match GCode.defaultWord c with
    | .ok w => decide (wordClass w = some c)
    | .error _ => true) (by decide +kernel) c
  rw [h] at this
  exact of_decide_eq_true this

/-- Of the classes that words can name, only line numbers, program names and the user defined codes have
no default. -/
theorem C76_no_default (w : Word) (c : Cls) (h : wordClass w = some c) :
    (∃ w', GCode.defaultWord c = .ok w') ∨
      GCode.defaultWord c = .error .assertion ∧ (c = .lineNumber ∨ c = .programName ∨ c = .userDefined) := by
  have hc := ((C15_lookup false w c).1 h).2
  have := Cls.forall_of_all (p := fun c => match GCode.defaultWord c with
    | .ok _ => true
    | .error e => decide (e = .assertion) && (c.wordKey.isNone && (c.matcher.isNone || decide (c = .lineNumber ∨ c = .programName ∨ c = .userDefined))))
    (by decide +kernel) c
  cases hd : GCode.defaultWord c with
  | ok w' => exact .inl ⟨w', rfl⟩
  | error e =>
    rw [hd] at this
    simp only [Bool.and_eq_true, Bool.or_eq_true, decide_eq_true_eq, Option.isNone_iff_eq_none] at this
    obtain ⟨rfl, hk, hm⟩ := this
    refine .inr ⟨rfl, ?_⟩
    rcases hm with hm | hm
    · rcases hc with ⟨l, q, hk', -⟩ | ⟨-, f, hf, -⟩
      · rw [hk] at hk'; cases hk'
      · rw [hm] at hf; cases hf
    · exact hm

/-- Parameters given by letter. -/
def addKw (g : GCode) (p : Char × ℚ) : Except Err GCode :=
  match Word.ofNum p.1 p.2 with
  | .error e => .error e
  | .ok w => g.addParam w

theorem makeKw_eq (c : Cls) (ps : List (Char × ℚ)) : GCode.makeKw c ps =
    match GCode.defaultWord c with
    | .error e => .error e
    | .ok w => ps.foldlM addKw ⟨c, w, [], false⟩ := rfl

theorem addKw_ok (g : GCode) (hg : GOK g) (p : Char × ℚ) (hp : p.1 ∈ g.cls.params) (hn : g.param p.1 = none) :
    ∃ g' w, addKw g p = .ok g' ∧ Word.ofNum p.1 p.2 = .ok w ∧ GOK g' ∧ g'.cls = g.cls ∧ g'.word = g.word ∧ g'.ws = g.ws ∧
      g'.param p.1 = some w ∧ ∀ k, k ≠ p.1 → g'.param k = g.param k := by
  obtain ⟨hup, hk⟩ := param_letters_known g.cls p.1 hp
  obtain ⟨w, hw, hwl⟩ := ofNum_ok p.1 p.2 hup hk
  obtain ⟨g', h1, h2, h3, h4⟩ := (C22_add g w).1 ⟨by rw [hwl]; exact hp, by rw [hwl]; exact hn⟩
  have hsame : g'.cls = g.cls ∧ g'.word = g.word ∧ g'.ws = g.ws := by
    unfold GCode.addParam at h1
    split_ifs at h1
    cases h1
    exact ⟨rfl, rfl, rfl⟩
  rw [hwl] at h3 h4
  refine ⟨g', w, ?_, hw, h2 hg, hsame.1, hsame.2.1, hsame.2.2, h3 hg, h4⟩
  unfold addKw
  rw [hw]
  exact h1

theorem foldKw_ok (ps : List (Char × ℚ)) (hnd : (ps.map Prod.fst).Nodup) :
    ∀ g : GCode, GOK g → (∀ p ∈ ps, p.1 ∈ g.cls.params) → (∀ p ∈ ps, g.param p.1 = none) →
      ∃ g', ps.foldlM addKw g = .ok g' ∧ GOK g' ∧ g'.cls = g.cls ∧ g'.word = g.word ∧ g'.ws = g.ws ∧
        (∀ p ∈ ps, ∃ w, Word.ofNum p.1 p.2 = .ok w ∧ g'.param p.1 = some w) ∧
        ∀ l, l ∉ ps.map Prod.fst → g'.param l = g.param l := by
  induction ps with
  | nil => exact fun g hg _ _ => ⟨g, rfl, hg, rfl, rfl, rfl, by simp, fun _ _ => rfl⟩
  | cons p ps ih =>
    intro g hg hacc hno
    rw [List.map_cons, List.nodup_cons] at hnd
    obtain ⟨g1, w, h1, h2, h3, h4, h5, h6, h7, h8⟩ := addKw_ok g hg p (hacc p (by simp)) (hno p (by simp))
    have hne : ∀ q ∈ ps, q.1 ≠ p.1 := fun q hq he => hnd.1 (he ▸ List.mem_map_of_mem hq)
    obtain ⟨g', k1, k2, k3, k4, k5, k6, k7⟩ := ih hnd.2 g1 h3 (fun q hq => by rw [h4]; exact hacc q (by simp [hq]))
      (fun q hq => by rw [h8 _ (hne q hq)]; exact hno q (by simp [hq]))
    refine ⟨g', ?_, k2, k3.trans h4, k4.trans h5, k5.trans h6, ?_, ?_⟩
    · rw [List.foldlM_cons, h1]; exact k1
    · intro q hq
      rcases List.mem_cons.1 hq with rfl | hq
      · exact ⟨w, h2, by rw [k7 _ hnd.1]; exact h7⟩
      · exact k6 q hq
    · intro l hl
      rw [List.map_cons, List.mem_cons, not_or] at hl
      rw [k7 l hl.2, h8 l hl.1]

/-- `cls(**params)` for a class with a default word, and different letters that it accepts, builds a gcode
of that class with that word, and exactly these parameters. -/
theorem C76_params (c : Cls) (w : Word) (hw : GCode.defaultWord c = .ok w) (ps : List (Char × ℚ))
    (hacc : ∀ p ∈ ps, p.1 ∈ c.params) (hnd : (ps.map Prod.fst).Nodup) :
    ∃ g, GCode.makeKw c ps = .ok g ∧ GOK g ∧ Named g ∧ g.cls = c ∧ g.word = w ∧ g.ws = false ∧
      (∀ p ∈ ps, ∃ v, Word.ofNum p.1 p.2 = .ok v ∧ g.param p.1 = some v) ∧
      ∀ l, l ∉ ps.map Prod.fst → g.param l = none := by
  rw [makeKw_eq, hw]
  obtain ⟨g, h1, h2, h3, h4, h5, h6, h7⟩ := foldKw_ok ps hnd ⟨c, w, [], false⟩ ⟨by simp, by simp⟩ hacc (fun _ _ => rfl)
  refine ⟨g, h1, h2, ?_, h3, h4, h5, h6, h7⟩
  unfold Named
  rw [h3, h4]
  exact C76_default c w hw

/-- A letter that the class does not accept is an error, wherever it stands and whatever the others. -/
theorem C76_rejected (c : Cls) (ps : List (Char × ℚ)) (p : Char × ℚ) (hp : p ∈ ps) (hno : p.1.toUpper ∉ c.params) :
    ∃ e, GCode.makeKw c ps = .error e := by
  rw [makeKw_eq]
  cases GCode.defaultWord c with
  | error e => exact ⟨e, rfl⟩
  | ok w =>
    have key : ∀ (ps : List (Char × ℚ)) (g : GCode), p ∈ ps → g.cls = c → ∃ e, ps.foldlM addKw g = .error e := by
      intro ps
      induction ps with
      | nil => intro g h; cases h
      | cons q qs ih =>
        intro g hq hg
        rw [List.foldlM_cons]
        cases hx : addKw g q with
        | error e => exact ⟨e, rfl⟩
        | ok g' =>
          unfold addKw at hx
          cases hw : Word.ofNum q.1 q.2 with
          | error e => rw [hw] at hx; cases hx
          | ok v =>
            rw [hw] at hx
            simp only at hx
            have hl : v.letter = q.1.toUpper := by
              unfold Word.ofNum at hw
              simp only at hw
              split at hw <;> cases hw <;> rfl
            have hacc : v.letter ∈ g.cls.params ∧ g'.cls = g.cls := by
              unfold GCode.addParam at hx
              split_ifs at hx with h1
              cases hx
              exact ⟨by simpa using h1, rfl⟩
            rcases List.mem_cons.1 hq with rfl | hq
            · rw [hl, hg] at hacc
              exact absurd hacc.1 hno
            · exact ih g' hq (hacc.2.trans hg)
    exact key ps _ hp rfl

/-- A number for the word itself is taken by exactly five classes, whose word then has that value. -/
theorem C76_value (c : Cls) (v : ℚ) :
    (c ∈ [Cls.feedRate, .spindleSpeed, .selectTool, .lineNumber, .programName] →
      ∃ g w, GCode.makeNum c v [] = .ok g ∧ Word.ofNum c.letter v = .ok w ∧ g = ⟨c, w, [], false⟩ ∧ Named g) ∧
    (c ∉ [Cls.feedRate, .spindleSpeed, .selectTool, .lineNumber, .programName] →
      GCode.makeNum c v [] = .error .assertion) := by
  constructor
  · intro h
    have hconf : c.configurable = true := by
      have := Cls.forall_of_all (p := fun c => !(decide (c ∈ [Cls.feedRate, .spindleSpeed, .selectTool, .lineNumber,
        .programName])) || c.configurable) (by decide +kernel) c
      simpa [h] using this
    have hw : ∃ w, Word.ofNum c.letter v = .ok w ∧ wordClass w = some c := by
      simp only [List.mem_cons, List.not_mem_nil, or_false] at h
      rcases h with rfl | rfl | rfl | rfl | rfl
      all_goals
        refine ⟨_, rfl, ?_⟩
        unfold wordClass
        rw [C15_lookup]
        refine ⟨.inr (by simp only; decide +kernel), .inr ⟨by decide +kernel, _, rfl, ?_⟩⟩
        rfl
    obtain ⟨w, hw, hn⟩ := hw
    refine ⟨⟨c, w, [], false⟩, w, ?_, hw, rfl, hn⟩
    unfold GCode.makeNum
    rw [if_pos hconf, hw]
    rfl
  · intro h
    have hconf : c.configurable = false := by
      have := Cls.forall_of_all (p := fun c => decide (c ∈ [Cls.feedRate, .spindleSpeed, .selectTool, .lineNumber,
        .programName]) || !c.configurable) (by decide +kernel) c
      simpa [h] using this
    unfold GCode.makeNum
    rw [hconf]
    rfl

/-- What `text2gcodes` returns has all the words of the text, in the gcodes they belong to. -/
theorem C76_complete (t : List Char) (gs : List GCode) (h : text2gcodes t = .ok gs) :
    ∃ ws, text2words t = .ok ws ∧ words2gcodes ws = .ok (gs, []) ∧ (gs.flatMap (fun g => g.word :: g.params)).Perm ws := by
  unfold text2gcodes at h
  cases hw : text2words t with
  | error e => rw [hw] at h; cases h
  | ok ws =>
    rw [hw] at h
    simp only at h
    cases hg : words2gcodes ws with
    | error e => rw [hg] at h; cases h
    | ok r =>
      obtain ⟨gs', un⟩ := r
      rw [hg] at h
      simp only at h
      split_ifs at h with hun
      cases h
      subst hun
      refine ⟨ws, rfl, hg, ?_⟩
      have := C16_conserved ws gs [] hg
      rwa [List.append_nil] at this

theorem wordsWhere_nil (ws : List Word) (P : ℕ → Bool) : wordsWhere ws P = [] ↔ ∀ k < ws.length, P k = false := by
  unfold wordsWhere
  rw [List.filterMap_eq_nil_iff]
  constructor
  · intro h k hk
    by_contra hP
    have := h k (List.mem_filter.2 ⟨List.mem_range.2 hk, by simpa using hP⟩)
    rw [List.getElem?_eq_getElem hk] at this
    cases this
  · intro h k hk
    obtain ⟨h1, h2⟩ := List.mem_filter.1 hk
    rw [h k (List.mem_range.1 h1)] at h2
    cases h2

/-- A text with words that belong to no gcode is refused; any other gives its gcodes. -/
theorem C76_incomplete (t : List Char) (ws : List Word) (h : text2words t = .ok ws) (role : ℕ → Role)
    (hr : IsGrouping ws role) (gs : List GCode) (un : List Word) (hg : words2gcodes ws = .ok (gs, un)) :
    (text2gcodes t = .error .wordStr ↔ ∃ k < ws.length, role k = .unused) ∧
      (text2gcodes t = .ok gs ↔ ∀ k < ws.length, role k ≠ .unused) := by
  have hnil : un = [] ↔ ∀ k < ws.length, role k ≠ .unused := by
    rw [(C17_result ws gs un hg role hr).2, wordsWhere_nil]
    simp
  unfold text2gcodes
  rw [h]
  simp only [hg]
  by_cases hun : un = []
  · rw [if_pos hun]
    have := hnil.1 hun
    refine ⟨⟨fun h => (by cases h), fun ⟨k, hk, hk'⟩ => absurd hk' (this k hk)⟩, ⟨fun _ => this, fun _ => rfl⟩⟩
  · rw [if_neg hun]
    refine ⟨⟨fun _ => ?_, fun _ => rfl⟩, ⟨fun h => (by cases h), fun h => absurd (hnil.2 h) hun⟩⟩
    by_contra hx
    push Not at hx
    exact hun (hnil.2 hx)

/-- The text of a gcode is read as a gcode of the same class, word and parameters. -/
theorem C76_text (g : GCode) (hg : GOK g) (hn : Named g) (hws : g.ws = false) (hp : ∀ w ∈ g.word :: g.params, PlainWord w) :
    ∃ g', text2gcodes g.str = .ok [g'] ∧ SameGCode g g' := by
  have hp' : ∀ w ∈ printedWords [g] [], PlainWord w := by
    intro w hw
    have := (printed_perm [g] []).mem_iff.1 hw
    exact hp w (by simpa using this)
  have h1 : text2words g.str = .ok (printedWords [g] []) := by
    have hj := block_str_join [g] [] (by simpa using hws)
    simp only [List.map_cons, List.map_nil, List.append_nil, joinWith] at hj
    rw [show g.str = joinWith [' '] ((printedWords [g] []).map Word.str) from hj]
    exact (C03_remove_whitespace _ (fun w hw => (hp' w hw).1) (fun w hw => (hp' w hw).2.1)).1
  have h2 := regroup_canon [g] [] (by simpa using (show wordClass g.word = some g.cls from hn)) (by simpa using hg) (by simp [Ordered]) (by simpa using hws)
    (by simp) (by simp)
  refine ⟨canon g, ?_, canon_same g⟩
  unfold text2gcodes
  rw [h1]
  simp only [h2]
  rfl

/-! ## Cases -/

/-- `GCodeDrillingCycle(Z=-1, R=2)` -/
example : GCode.makeKw .drillingCycle [('Z', -1), ('R', 2)] =
    .ok ⟨.drillingCycle, ⟨'G', .num 81⟩, [⟨'Z', .num (-1)⟩, ⟨'R', .num 2⟩], false⟩ := by decide +kernel
/-- It is read again as it was printed. -/
example : ∃ g g', GCode.makeKw .drillingCycle [('Z', -1), ('R', 2)] = .ok g ∧ g.str = "G81 R2 Z-1".toList ∧
    text2gcodes g.str = .ok [g'] ∧ SameGCode g g' := by
  obtain ⟨g', h1, h2⟩ := C76_text ⟨.drillingCycle, ⟨'G', .num 81⟩, [⟨'Z', .num (-1)⟩, ⟨'R', .num 2⟩], false⟩
    ⟨by decide +kernel, by decide +kernel⟩ (by unfold Named; decide +kernel) rfl
    (fun w hw => plainB_sound (List.all_eq_true.1 (by decide +kernel) w hw))
  exact ⟨_, g', by decide +kernel, by decide +kernel, h1, h2⟩
/-- Small letters are accepted as well, but not both. -/
example : GCode.makeKw .linearMove [('x', 1), ('X', 2)] = .error .param := by decide +kernel
example : GCode.makeKw .linearMove [('x', 1)] = GCode.makeKw .linearMove [('X', 1)] := by decide +kernel
example : GCode.makeKw .lineNumber [] = .error .assertion := by decide +kernel
/-- `GCodeFeedRate(100)` -/
example : GCode.makeNum .feedRate 100 [] = .ok ⟨.feedRate, ⟨'F', .num 100⟩, [], false⟩ := by decide +kernel
example : text2gcodes "X1 G1 Y2".toList = .error .wordStr := by decide +kernel
/-- The block `M8 G90 X1`, after `G1`: three gcodes are executed. -/
example : (Block.ofText "M8 G90 X1".toList).map Block.len = .ok 3 ∧
    ((Block.ofText "M8 G90 X1".toList).bind (fun b => (newNull.processStr "G1".toList).1.blockModalGcodes b)).map
      List.length = .ok 3 := by decide +kernel

end Pygcode.Props
