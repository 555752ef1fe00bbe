import Verif.Props.Failures

/-!
# C91: modal groups, order of execution and parameters are the published ones

The tables copied into gcodes.py:44-72 (modal groups), gcodes.py:112-138 (order of execution) and in front of
each section (parameters), against the classes.
-/

namespace Pygcode
open Props Machine Spec

/-! ## Specification -/

/-- Modal groups of words (gcodes.py:48-71): those of `G` words, and 100 more for those of `M` words.  Words missing
in the tables but listed in the sections below them are entered there: G5 to G5.3 and G33.1 (gcodes.py:383-396), G43.2
(gcodes.py:766-770); F, S and T have groups of their own (gcodes.py:95-107). -/
def Table.group (l : Char) (q : ℚ) : Option ℕ :=
  if l = 'G' then
    if q ∈ ([0, 1, 2, 3, 5, 51/10, 52/10, 53/10, 33, 331/10, 73, 76, 80, 81, 82, 83, 84, 85, 86, 87, 88, 89] : List ℚ) ∨
      (38 < q ∧ q < 39) then some 1
    else if q ∈ ([17, 18, 19, 171/10, 181/10, 191/10] : List ℚ) then some 2
    else if q ∈ ([90, 91] : List ℚ) then some 3
    else if q ∈ ([901/10, 911/10] : List ℚ) then some 4
    else if q ∈ ([93, 94, 95] : List ℚ) then some 5
    else if q ∈ ([20, 21] : List ℚ) then some 6
    else if q ∈ ([40, 41, 42, 411/10, 421/10] : List ℚ) then some 7
    else if q ∈ ([43, 431/10, 432/10, 49] : List ℚ) then some 8
    else if q ∈ ([98, 99] : List ℚ) then some 10
    else if q ∈ ([54, 55, 56, 57, 58, 59, 591/10, 592/10, 593/10] : List ℚ) then some 12
    else if q ∈ ([61, 611/10, 64] : List ℚ) then some 13
    else if q ∈ ([96, 97] : List ℚ) then some 14
    else if q ∈ ([7, 8] : List ℚ) then some 15
    else none
  else if l = 'M' then
    if q ∈ ([0, 1, 2, 30, 60] : List ℚ) then some 104
    else if q ∈ ([3, 4, 5] : List ℚ) then some 107
    else if q ∈ ([7, 8, 9] : List ℚ) then some 108
    else if q ∈ ([48, 49] : List ℚ) then some 109
    else if 100 ≤ q ∧ q ≤ 199 then some 110
    else none
  else if l = 'F' then some 201
  else if l = 'S' then some 202
  else if l = 'T' then some 203
  else none

/-- The words of the tables (those of the non-modal group 0 of gcodes.py:49 included). -/
def Table.listed (l : Char) (q : ℚ) : Prop :=
  (l, q) ∈ (([0, 1, 2, 3, 33, 382/10, 383/10, 384/10, 385/10, 73, 76, 80, 81, 82, 83, 84, 85, 86, 87, 88, 89, 17, 18, 19,
    171/10, 181/10, 191/10, 90, 91, 901/10, 911/10, 93, 94, 95, 20, 21, 40, 41, 42, 411/10, 421/10, 43, 431/10, 49, 98, 99,
    54, 55, 56, 57, 58, 59, 591/10, 592/10, 593/10, 61, 611/10, 64, 96, 97, 7, 8, 4, 10, 28, 30, 53, 92, 921/10, 922/10,
    923/10] : List ℚ).map (Prod.mk 'G') ++
    ([0, 1, 2, 30, 60, 3, 4, 5, 7, 8, 9, 48, 49, 62, 63, 64, 65, 66, 67, 68, 6, 61, 70, 71, 72, 73, 50, 51, 52, 53]
      : List ℚ).map (Prod.mk 'M')) ∨ (l = 'M' ∧ 100 ≤ q ∧ q ≤ 199)

instance (l : Char) (q : ℚ) : Decidable (Table.listed l q) := by unfold Table.listed; infer_instance

/-- Position in the order of execution (gcodes.py:112-138), from 1 (O-words) to 25 (stop); comments (2) are not words. -/
def Table.step (l : Char) (q : ℚ) : Option ℕ :=
  if l = 'O' then some 1
  else if l = 'F' then some 4
  else if l = 'S' then some 5
  else if l = 'T' then some 6
  else if l = 'G' then
    if q ∈ ([0, 1, 2, 3, 5, 51/10, 52/10, 53/10, 33, 331/10, 73, 76, 80, 81, 82, 83, 84, 85, 86, 87, 88, 89, 53]
      : List ℚ) ∨ (38 < q ∧ q < 39) then some 24
    else if q ∈ ([93, 94, 95] : List ℚ) then some 3
    else if q = 4 then some 14
    else if q ∈ ([17, 18, 19, 171/10, 181/10, 191/10] : List ℚ) then some 15
    else if q ∈ ([20, 21] : List ℚ) then some 16
    else if q ∈ ([40, 41, 42, 411/10, 421/10] : List ℚ) then some 17
    else if q ∈ ([43, 431/10, 432/10, 49] : List ℚ) then some 18
    else if q ∈ ([54, 55, 56, 57, 58, 59, 591/10, 592/10, 593/10] : List ℚ) then some 19
    else if q ∈ ([61, 611/10, 64] : List ℚ) then some 20
    else if q ∈ ([90, 91] : List ℚ) then some 21
    else if q ∈ ([98, 99] : List ℚ) then some 22
    else if q ∈ ([28, 30, 281/10, 301/10, 10, 92, 921/10, 922/10, 923/10] : List ℚ) then some 23
    else none
  else if l = 'M' then
    if q ∈ ([62, 63, 64, 65, 66, 67, 68] : List ℚ) then some 7
    else if q ∈ ([6, 61] : List ℚ) then some 8
    else if q ∈ ([3, 4, 5] : List ℚ) then some 9
    else if q ∈ ([70, 71, 72, 73] : List ℚ) then some 10
    else if q ∈ ([7, 8, 9] : List ℚ) then some 11
    else if q ∈ ([48, 49, 50, 51, 52, 53] : List ℚ) then some 12
    else if 100 ≤ q ∧ q ≤ 199 then some 13
    else if q ∈ ([0, 1, 2, 30, 60] : List ℚ) then some 25
    else none
  else none

/-- Parameters (first lines of the sections, gcodes.py:383-397, 531-539, 612-617, 659-661, 683-687, 740-742, 765-770,
799-803, 835-837, 856-859, 933-937, 973-976, 999-1002, 1021-1031, 1198-1203, 1256-1271). -/
def Table.params (l : Char) (q : ℚ) : List Char :=
  let axes : List Char := ['X', 'Y', 'Z', 'A', 'B', 'C', 'U', 'V', 'W']
  let cycle : List Char := ['X', 'Y', 'Z', 'U', 'V', 'W']
  if l = 'G' then
    if q ∈ ([0, 1, 80] : List ℚ) ∨ (38 < q ∧ q < 39) then axes
    else if q ∈ ([2, 3] : List ℚ) then axes ++ ['I', 'J', 'K', 'R', 'P']
    else if q = 4 then ['P']
    else if q = 5 then axes ++ ['I', 'J', 'P', 'Q']
    else if q = 51/10 then axes ++ ['I', 'J']
    else if q ∈ ([52/10, 53/10] : List ℚ) then axes ++ ['P', 'L']
    else if q ∈ ([33, 331/10] : List ℚ) then axes ++ ['K']
    else if q ∈ ([81, 82, 85, 89] : List ℚ) then cycle ++ ['R', 'L', 'P']
    else if q ∈ ([83, 73] : List ℚ) then cycle ++ ['R', 'L', 'Q']
    else if q = 76 then cycle ++ ['P', 'Z', 'I', 'J', 'R', 'K', 'Q', 'H', 'L', 'E']
    else if q ∈ ([96, 97] : List ℚ) then ['S', 'D']
    else if q ∈ ([43, 432/10] : List ℚ) then ['H']
    else if q ∈ ([41, 42] : List ℚ) then ['D']
    else if q ∈ ([411/10, 421/10] : List ℚ) then ['D', 'L']
    else if q = 64 then ['P', 'Q']
    else if q = 10 then ['L', 'P', 'Q', 'R', 'A', 'B', 'C', 'X', 'Y', 'Z']
    else []
  else if l = 'M' then
    if q ∈ ([3, 4, 5] : List ℚ) then ['S']
    else if q ∈ ([50, 51, 52, 53, 62, 63, 64, 65] : List ℚ) then ['P']
    else if q = 66 then ['P', 'E', 'L', 'Q']
    else if q ∈ ([67, 68, 6] : List ℚ) then ['T']
    else if q = 61 then ['Q']
    else if 101 ≤ q ∧ q ≤ 199 then ['P', 'Q']
    else []
  else []

/-- The word G80. -/
def g80 : Word := ⟨'G', .num 80⟩

/-! ## Every word -/

/-- Lift a check of the words of all classes: those with a word of their own, and those with a test. -/
theorem claims_check (P : Char → ℚ → Cls → Bool) (w : Word) (c : Cls) (h : wordClass w = some c)
    (hkey : Cls.all.all (fun c => match c.wordKey with | none => true | some k => P k.1 k.2 c) = true)
    (hlet : (P 'N' w.num .lineNumber && P 'O' w.num .programName && P 'F' w.num .feedRate &&
      P 'S' w.num .spindleSpeed && P 'T' w.num .selectTool) = true)
    (hprobe : 191 / 5 ≤ w.num → w.num ≤ 77 / 2 → P 'G' w.num .straightProbe = true)
    (hone : (P 'G' 28 .gotoPredefinedPosition && P 'G' 30 .gotoPredefinedPosition &&
      P 'G' (281 / 10) .setPredefinedPosition && P 'G' (301 / 10) .setPredefinedPosition &&
      P 'G' (921 / 10) .resetCoordSystemOffset && P 'G' (461 / 5) .resetCoordSystemOffset) = true) :
    P w.letter w.num c = true := by
  simp only [Bool.and_eq_true] at hlet hone
  obtain ⟨-, ⟨l, q, hk, rfl⟩ | ⟨hk, f, hf, ht⟩⟩ := (C15_lookup false w c).1 h
  · have := Cls.forall_of_all hkey c
    rw [hk] at this
    exact this
  have hc := Cls.forall_of_all (p := fun c => match c.wordKey, c.matcher with
    | none, some f => decide ((c, f) ∈ [(.lineNumber, .letter 'N'), (.programName, .letter 'O'), (.feedRate, .letter 'F'),
        (.spindleSpeed, .letter 'S'), (.selectTool, .letter 'T'), (.straightProbe, .range 'G' (191 / 5) (77 / 2)),
        (.gotoPredefinedPosition, .oneOf 'G' [28, 30]), (.setPredefinedPosition, .oneOf 'G' [281 / 10, 301 / 10]),
        (Cls.resetCoordSystemOffset, Matcher.oneOf 'G' [921 / 10, 461 / 5])])
    | _, _ => true) (by decide +kernel) c
  rw [hk, hf] at hc
  simp only [decide_eq_true_eq, List.mem_cons, List.not_mem_nil, or_false, Prod.mk.injEq] at hc
  rcases hc with ⟨rfl, rfl⟩ | ⟨rfl, rfl⟩ | ⟨rfl, rfl⟩ | ⟨rfl, rfl⟩ | ⟨rfl, rfl⟩ | ⟨rfl, rfl⟩ | ⟨rfl, rfl⟩ | ⟨rfl, rfl⟩ |
    ⟨rfl, rfl⟩ <;> simp only [Matcher.test, beq_iff_eq, Bool.and_eq_true, decide_eq_true_eq, List.contains_eq_mem,
      List.mem_cons, List.not_mem_nil, or_false] at ht
  · rw [ht]; exact hlet.1.1.1.1
  · rw [ht]; exact hlet.1.1.1.2
  · rw [ht]; exact hlet.1.1.2
  · rw [ht]; exact hlet.1.2
  · rw [ht]; exact hlet.2
  · rw [ht.1.1]; exact hprobe ht.1.2 ht.2
  · rcases ht with ⟨hl, hq | hq⟩ <;> rw [hl, hq]
    · exact hone.1.1.1.1.1
    · exact hone.1.1.1.1.2
  · rcases ht with ⟨hl, hq | hq⟩ <;> rw [hl, hq]
    · exact hone.1.1.1.2
    · exact hone.1.1.2
  · rcases ht with ⟨hl, hq | hq⟩ <;> rw [hl, hq]
    · exact hone.1.2
    · exact hone.2

/-- A word with the letter and the number of a word key is this word. -/
theorem key_eq {w : Word} {c d : Cls} {l : Char} {q : ℚ} (h : wordClass w = some c) (hd : d.wordKey = some (l, q))
    (he : w.letter = l ∧ w.num = q) : w = ⟨l, .num q⟩ := by
  obtain ⟨-, ⟨l', q', hk, rfl⟩ | ⟨hk, f, hf, ht⟩⟩ := (C15_lookup false w c).1 h
  · obtain ⟨rfl, he⟩ := he
    simp only [Word.num] at he
    rw [he]
  · exfalso
    have hm : f.test ⟨l, .num q⟩ = true := by
      rw [← ht]
      have hq : (⟨l, .num q⟩ : Word).num = w.num := he.2.symm
      unfold Matcher.test
      cases f <;> simp [he.1, hq]
    have hb := keys_matchers d c (l, q) f hd hk hf
    rw [show keyWord (l, q) = ⟨l, .num q⟩ from rfl, hm] at hb
    cases hb

/-- **C91** (modal groups): the modal group of every gcode other than G80 is the published one of its word. -/
theorem C91_group_partial (w : Word) (c : Cls) (h : wordClass w = some c) (h80 : w ≠ g80) :
    c.group = Table.group w.letter w.num := by
  have := claims_check (fun l q c => decide ((l, q) = ('G', 80) ∨ c.group = Table.group l q)) w c h
    (by decide +kernel) rfl
    (fun h1 h2 => by
      have : Table.group 'G' w.num = some 1 := by
        unfold Table.group
        rw [if_pos rfl, if_pos (.inr ⟨by linarith, by linarith⟩)]
      rw [this]
      exact decide_eq_true (.inr (by decide +kernel)))
    (by decide +kernel)
  simp only [decide_eq_true_eq, Prod.mk.injEq] at this
  rcases this with he | he
  · exact absurd (key_eq (d := .cancelCannedCycle) h (by decide +kernel) he) h80
  · exact he

/-- G80 is in no group (gcodes.py:515-522 gives the reason), so it goes together with another motion. -/
theorem C91_cancel_refuted : Table.group 'G' 80 = some 1 ∧ wordClass g80 = some .cancelCannedCycle ∧
    Cls.cancelCannedCycle.group = none := by decide +kernel

/-- The published steps, ten apart, O-words excepted. -/
theorem step_order (w : Word) (c : Cls) (h : wordClass w = some c) (i : ℕ) (hi : Table.step w.letter w.num = some i) :
    (i = 1 ∧ c.order = 1) ∨ (2 ≤ i ∧ 10 * i ≤ c.order ∧ c.order < 10 * i + 10) := by
  have := claims_check (fun l q c => match Table.step l q with
      | none => true
      | some i => decide ((i = 1 ∧ c.order = 1) ∨ (2 ≤ i ∧ 10 * i ≤ c.order ∧ c.order < 10 * i + 10))) w c h
    (by decide +kernel) rfl
    (fun h1 h2 => by
      have : Table.step 'G' w.num = some 24 := by
        unfold Table.step
        rw [if_neg (by decide), if_neg (by decide), if_neg (by decide), if_neg (by decide), if_pos rfl,
          if_pos (.inr ⟨by linarith, by linarith⟩)]
      simp only [this]
      decide +kernel)
    (by decide +kernel)
  simp only [hi] at this
  simpa using this

/-- **C91** (order): a gcode of an earlier step of the published order has an earlier place. -/
theorem C91_order (w w' : Word) (c c' : Cls) (h : wordClass w = some c) (h' : wordClass w' = some c') (i j : ℕ)
    (hi : Table.step w.letter w.num = some i) (hj : Table.step w'.letter w'.num = some j) (hij : i < j) :
    c.order < c'.order := by
  have h1 := step_order w c h i hi
  have h2 := step_order w' c' h' j hj
  omega

/-- **C91** (execution): the gcodes of a line are executed in the published order: none after one of a later step. -/
theorem C91_executed (ws : List Word) (gs : List GCode) (un : List Word) (h : words2gcodes ws = .ok (gs, un)) :
    (execSort gs).Pairwise (fun a b => ∀ i j, Table.step a.word.letter a.word.num = some i →
      Table.step b.word.letter b.word.num = some j → i ≤ j) := by
  obtain ⟨h1, h2, -⟩ := execSort_stable gs
  have hn : ∀ g ∈ execSort gs, wordClass g.word = some g.cls := fun g hg =>
    kept_named.parsed ws gs un h g (h1.mem_iff.1 hg)
  rw [List.pairwise_iff_forall_sublist] at h2 ⊢
  intro a b hs i j hi hj
  have hab := h2 hs
  have h3 := step_order a.word a.cls (hn a (hs.subset (by simp))) i hi
  have h4 := step_order b.word b.cls (hn b (hs.subset (by simp))) j hj
  omega

/-- **C91** (blocks): a block is refused exactly if two of its gcodes have the same word or belong to the same published
group (G80 aside). -/
theorem C91_block_partial (t : List Char) (ws : List Word) (gs : List GCode) (mp : List Word)
    (h1 : text2words (cleanText t) = .ok ws) (h2 : words2gcodes ws = .ok (gs, mp)) (h80 : ∀ g ∈ gs, g.word ≠ g80) :
    (∃ e, Block.ofText t = .error e) ↔ ∃ (i j : ℕ) (a b : Word), i < j ∧ (gs.map GCode.word)[i]? = some a ∧ (gs.map GCode.word)[j]? = some b ∧
      (a = b ∨ (Table.group a.letter a.num = Table.group b.letter b.num ∧ Table.group a.letter a.num ≠ none)) := by
  obtain ⟨h3, h4, -⟩ := C19_verify t ws gs mp h1 h2
  have hn : ∀ g ∈ gs, g.cls.group = Table.group g.word.letter g.word.num := fun g hg =>
    C91_group_partial g.word g.cls (kept_named.parsed ws gs mp h2 g hg) (h80 g hg)
  have hc : Conflict gs ↔ ∃ (i j : ℕ) (a b : Word), i < j ∧ (gs.map GCode.word)[i]? = some a ∧ (gs.map GCode.word)[j]? = some b ∧
      (a = b ∨ (Table.group a.letter a.num = Table.group b.letter b.num ∧ Table.group a.letter a.num ≠ none)) := by
    constructor
    · rintro ⟨i, j, a, b, hij, hi, hj, hab⟩
      refine ⟨i, j, a.word, b.word, hij, by simp [hi], by simp [hj], ?_⟩
      rwa [← hn a (List.mem_of_getElem? hi), ← hn b (List.mem_of_getElem? hj)]
    · rintro ⟨i, j, a, b, hij, hi, hj, hab⟩
      rw [List.getElem?_map, Option.map_eq_some_iff] at hi hj
      obtain ⟨x, hx, rfl⟩ := hi
      obtain ⟨y, hy, rfl⟩ := hj
      refine ⟨i, j, x, y, hij, hx, hy, ?_⟩
      rwa [hn x (List.mem_of_getElem? hx), hn y (List.mem_of_getElem? hy)]
  rw [← hc]
  constructor
  · rintro ⟨e, he⟩
    by_contra hno
    rw [h4 hno] at he
    cases he
  · intro h
    exact ⟨_, h3 h⟩

/-- The table says that M7 and M8 can both be on: they are refused on one line, and on two lines only the second is on. -/
theorem C91_coolant_refuted : Block.ofText "M7 M8".toList = .error .assertion ∧
    ((newNull.processStr "M7".toList).1.processStr "M8".toList).1.mode.str = "M08".toList := by decide +kernel

/-- **C91** (missing): the published words that no class reads. -/
theorem C91_missing (l : Char) (q : ℚ) (h : Table.listed l q) : wordClass ⟨l, .num q⟩ = none ↔
    (l = 'G' ∧ q ∈ ([84, 86, 87, 88] : List ℚ)) ∨ (l = 'M' ∧ (q ∈ ([70, 71, 72, 73] : List ℚ) ∨ (100 ≤ q ∧ q ≤ 199))) := by
  rcases h with h | ⟨rfl, hq⟩
  · revert h
    generalize hk : (l, q) = k
    have : (l, q).1 = k.1 ∧ (l, q).2 = k.2 := ⟨congrArg Prod.fst hk, congrArg Prod.snd hk⟩
    simp only at this
    rw [this.1, this.2]
    clear this hk
    revert k
    decide +kernel
  · refine iff_of_true ?_ (.inr ⟨rfl, .inr hq⟩)
    rw [Option.eq_none_iff_forall_ne_some]
    intro c hc
    have := claims_check (fun l q _ => !(decide (l = 'M') && decide (100 ≤ q) && decide (q ≤ 199))) ⟨'M', .num q⟩ c hc
      (by decide +kernel) rfl (fun _ _ => rfl) rfl
    simp [Word.num, hq.1, hq.2] at this

/-- **C91** (parameters): every gcode accepts the published parameters, except that S, with M3, M4, M5 and G97, is a gcode
of its own. -/
theorem C91_params (w : Word) (c : Cls) (h : wordClass w = some c) (x : Char) :
    x ∈ c.params ↔ x ∈ Table.params w.letter w.num ∧
      ¬ (x = 'S' ∧ w ∈ ([⟨'M', .num 3⟩, ⟨'M', .num 4⟩, ⟨'M', .num 5⟩, ⟨'G', .num 97⟩] : List Word)) := by
  have hw : ∀ y : Word, w = y → y.num = w.num ∧ y.letter = w.letter := fun y hy => hy ▸ ⟨rfl, rfl⟩
  have hs : w ∈ ([⟨'M', .num 3⟩, ⟨'M', .num 4⟩, ⟨'M', .num 5⟩, ⟨'G', .num 97⟩] : List Word) ↔
      (w.letter, w.num) ∈ ([('M', 3), ('M', 4), ('M', 5), ('G', 97)] : List (Char × ℚ)) := by
    simp only [List.mem_cons, List.not_mem_nil, or_false, Prod.mk.injEq]
    constructor
    · rintro (rfl | rfl | rfl | rfl) <;> simp [Word.num]
    · rintro (he | he | he | he)
      · exact .inl (key_eq (d := .startSpindleCW) h (by decide +kernel) he)
      · exact .inr (.inl (key_eq (d := .startSpindleCCW) h (by decide +kernel) he))
      · exact .inr (.inr (.inl (key_eq (d := .stopSpindle) h (by decide +kernel) he)))
      · exact .inr (.inr (.inr (key_eq (d := .spindleRPMMode) h (by decide +kernel) he)))
  rw [hs]
  have := claims_check (fun l q c => c.params.all (fun x => decide (x ∈ Table.params l q ∧
        ¬ (x = 'S' ∧ (l, q) ∈ ([('M', 3), ('M', 4), ('M', 5), ('G', 97)] : List (Char × ℚ))))) &&
      (Table.params l q).all (fun x => decide (x ∈ c.params ∨
        (x = 'S' ∧ (l, q) ∈ ([('M', 3), ('M', 4), ('M', 5), ('G', 97)] : List (Char × ℚ)))))) w c h
    (by decide +kernel) rfl
    (fun h1 h2 => by
      have hp : Table.params 'G' w.num = ['X', 'Y', 'Z', 'A', 'B', 'C', 'U', 'V', 'W'] := by
        unfold Table.params
        simp only
        rw [if_pos trivial, if_pos (.inr ⟨by linarith, by linarith⟩)]
      have hq : w.num ≠ 97 := fun he => by rw [he] at h2; norm_num at h2
      rw [hp]
      simp [hq]
      decide +kernel)
    (by decide +kernel)
  simp only [Bool.and_eq_true, List.all_eq_true, decide_eq_true_eq] at this
  constructor
  · exact this.1 x
  · rintro ⟨h1, h2⟩
    rcases this.2 x h1 with h | h
    · exact h
    · exact absurd h h2

/-! ## Examples -/

example : Table.group 'G' 382 = none ∧ Table.group 'G' (382 / 10) = some 1 := by decide +kernel
example : Cls.straightProbe.group = Table.group 'G' (384 / 10) :=
  C91_group_partial ⟨'G', .num (384 / 10)⟩ _ (by decide +kernel) (by decide +kernel)
/-- A line number has no group, whatever its number. -/
example (q : ℚ) : Cls.lineNumber.group = none :=
  C91_group_partial ⟨'N', .num q⟩ .lineNumber ((C15_lookup false _ _).2 ⟨.inr (show 'N' ∈ _ by decide), .inr ⟨by decide +kernel, .letter 'N',
    by decide +kernel, rfl⟩⟩) (by simp [g80])
example : Cls.feedRate.order < Cls.linearMove.order :=
  C91_order ⟨'F', .num 100⟩ ⟨'G', .num 1⟩ _ _ (by decide +kernel) (by decide +kernel) 4 24 (by decide +kernel)
    (by decide +kernel) (by decide)
example := C91_executed [⟨'M', .num 30⟩, ⟨'G', .num 1⟩, ⟨'X', .num 1⟩, ⟨'F', .num 3⟩]
  [⟨.endProgramPalletShuttle, ⟨'M', .num 30⟩, [], false⟩, ⟨.linearMove, ⟨'G', .num 1⟩, [⟨'X', .num 1⟩], false⟩,
    ⟨.feedRate, ⟨'F', .num 3⟩, [], false⟩] [] (by decide +kernel)
example : ∃ e, Block.ofText "G1 X1 G2".toList = .error e :=
  (C91_block_partial "G1 X1 G2".toList [⟨'G', .num 1⟩, ⟨'X', .num 1⟩, ⟨'G', .num 2⟩]
    [⟨.linearMove, ⟨'G', .num 1⟩, [⟨'X', .num 1⟩], false⟩, ⟨.arcMoveCW, ⟨'G', .num 2⟩, [], false⟩] [] (by decide +kernel)
    (by decide +kernel) (by decide +kernel)).2 ⟨0, 1, ⟨'G', .num 1⟩, ⟨'G', .num 2⟩, by decide, by decide +kernel, by decide +kernel,
      .inr (by decide +kernel)⟩
example : wordClass ⟨'M', .num 150⟩ = none := (C91_missing 'M' 150 (by decide +kernel)).2 (by decide +kernel)
example : 'K' ∈ Cls.rigidTapping.params := (C91_params ⟨'G', .num (331 / 10)⟩ _ (by decide +kernel) 'K').2 (by decide +kernel)

end Pygcode
