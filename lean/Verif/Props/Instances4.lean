import Verif.Props.Instances3
import Verif.Props.FloatMove
import Verif.Props.NormFinish
import Verif.Props.NormNone
import Verif.Props.NormArcOpts
import Verif.Props.Units
import Verif.Props.Lookup

/-! # The hypotheses of the remaining theorems hold for concrete inputs -/

namespace Pygcode
open Spec Machine Props

/-! ## Words -/

theorem print_x : Printable ⟨'X', .num (5 / 2)⟩ := ⟨25, 1, by norm_num, by norm_num, by norm_num⟩
theorem print_g : Printable ⟨'G', .num (191 / 5)⟩ := ⟨382, 1, by norm_num, by norm_num, by norm_num⟩
theorem print_both : ∀ w ∈ [(⟨'G', .num (191 / 5)⟩ : Word), ⟨'X', .num (5 / 2)⟩], Printable w := by
  intro w hw
  rcases List.mem_cons.1 hw with rfl | hw
  · exact print_g
  · rw [List.mem_singleton] at hw; subst hw; exact print_x

example := C02_code_text 'G' (by decide) 38 2 (by norm_num) (by norm_num)
example := C02_roundtrip _ print_x
example := C02_str2word _ print_g
example := C03_spaced [⟨'G', .num (191 / 5)⟩, ⟨'X', .num (5 / 2)⟩] _ print_both
  (.cons (sep := " ".toList) ⟨by unfold Blank; decide, by decide⟩ (by decide)
    (.cons (sep := "\t ".toList) ⟨by unfold Blank; decide, by decide⟩ (by decide) (.nil (t := "  ".toList) (by unfold Blank; decide))))
example := C03_remove_whitespace [⟨'G', .num (191 / 5)⟩, ⟨'X', .num (5 / 2)⟩] print_both (by decide)
example := C03_filter_blanks [⟨'G', .num (191 / 5)⟩, ⟨'X', .num (5 / 2)⟩] (by decide +kernel)
example := C04_nearest 'X' (1 / 3) (by decide) (by rw [abs_of_pos] <;> norm_num)
example := C04_error_small 'Y' (-2 / 3) (by decide) (by rw [abs_of_neg] <;> norm_num)
example := C04_error_bound 'Y' (12345 + 1 / 3) 4 (by decide) (by rw [abs_of_pos] <;> norm_num) (by rw [abs_of_pos] <;> norm_num)
example := C05_exponent (q := 1234567) (.inl (by norm_num))
example := C05_exponent (q := 1 / 30000) (.inr (by norm_num))
example := C05_readback_partial 'X' (-999999) (by decide) (by rw [abs_of_neg] <;> norm_num)
example := C05_unreadable 'X' 1000000 (by decide) (by rw [abs_of_pos] <;> norm_num)
example := C05_readback_iff 'X' 1000000 (by decide)

theorem same_case : SameUpToCase "g1 x2.5".toList "G1 X2.5".toList := by
  have h : ∀ a b : Char, (a = b ∨ (IsLetter a ∧ IsLetter b ∧ a.toUpper = b.toUpper)) →
      (a = b ∨ (IsLetter a ∧ IsLetter b ∧ a.toUpper = b.toUpper)) := fun _ _ h => h
  refine .cons (.inr ⟨by unfold IsLetter; decide, by unfold IsLetter; decide, by decide⟩) (.cons (.inl rfl) (.cons (.inl rfl)
    (.cons (.inr ⟨by unfold IsLetter; decide, by unfold IsLetter; decide, by decide⟩) (.cons (.inl rfl) (.cons (.inl rfl)
      (.cons (.inl rfl) .nil))))))

theorem case_words : text2words "g1 x2.5".toList = .ok [⟨'G', .num 1⟩, ⟨'X', .num (5 / 2)⟩] := by decide +kernel

example := C06_case _ _ same_case (by
  intro ws h
  rw [case_words] at h
  cases h
  decide)
example := C06_case_names _ _ same_case
example := C01_unambiguous "g1 x2.5".toList _ _ ((C01_ok_iff _ _).1 case_words) ((C01_ok_iff _ _).1 case_words)
example := C07_trans ⟨'G', .num 1⟩ ⟨'G', .num 2⟩ ⟨'X', .num 0⟩ (by decide +kernel) (by decide +kernel)
example := C07_total ⟨'G', .num 1⟩ ⟨'G', .num 2⟩ trivial trivial
example := C07_asymm ⟨'G', .num 1⟩ ⟨'G', .num 2⟩ (by decide +kernel)
example := C10_block_independent "G1 ".toList "a;b".toList "".toList (by decide) (by decide) (by decide)
example := C12_split "G1 X1 %m".toList (by decide)

/-! ## Classes and gcodes -/

example := C15_unique ⟨'G', .num 1⟩ .linearMove .linearMove (.inl ⟨'G', 1, by decide +kernel, rfl⟩)
  (.inl ⟨'G', 1, by decide +kernel, rfl⟩)
example := C15_build Cls.all.reverse (List.reverse_perm _)
example : True := by
  obtain ⟨m, hm⟩ := C15_build Cls.all.reverse (List.reverse_perm _)
  have := C15_order Cls.all.reverse (List.reverse_perm _) m hm false ⟨'G', .num 1⟩
  trivial
example := C15_found .linearMove 'G' 1 (by decide +kernel)
example := C22_param_dict sampleMove move_ok (some ['X', 'Y']) 'X' (.num 1)
example : ∃ m, sampleCycle.modalCopy = .ok m ∧ m.modalCopy = .ok m := by
  obtain ⟨m, h⟩ := exists_ok (x := sampleCycle.modalCopy) (by decide +kernel)
  exact ⟨m, h, C23_idempotent _ m sample_cycle_ok h⟩
example := C24_permute .linearMove ⟨'G', .num 1⟩ [⟨'X', .num 1⟩, ⟨'Y', .num 2⟩] [⟨'Y', .num 2⟩, ⟨'X', .num 1⟩] (.swap _ _ _)
example := C76_default .linearMove ⟨'G', .num 1⟩ (by decide +kernel)
example := C76_no_default ⟨'N', .num 5⟩ .lineNumber (by decide +kernel)
example := C62_error ⟨.arcMoveCW, ⟨'G', .num 2⟩, [⟨'X', .num 1⟩], false⟩ .name (by decide +kernel)

/-! ## Positions -/

/-- (1, 2, 3) -/
def instPos : Position := Position.make xyz .mm [(.X, 1), (.Y, 2), (.Z, 3)]
/-- (0, 0, 1/2) -/
def instPos2 : Position := Position.make xyz .mm [(.Z, 1 / 2)]
/-- (5), X only -/
def instPosX : Position := Position.make {.X} .mm [(.X, 5)]

example := C26_add_sub instPos instPos2 rfl
example := C26_sub_add instPos instPos2 rfl
example := C26_mul_div instPos 3 (by norm_num)
example : True := by
  obtain ⟨c, h⟩ := exists_ok (x := instPos.add instPos2) rfl
  obtain ⟨d, h'⟩ := exists_ok (x := instPos2.add instPos) rfl
  have h1 := C26_comm instPos instPos2 c d h h'
  have h2 := C26_assoc instPos instPos2 instPos c d h h'
  have h3 := C26_mul_add instPos instPos2 c 3 h
  have h4 := C27_sum_partial instPos instPos2 c rfl
  trivial
example : True := by
  obtain ⟨c, h⟩ := exists_ok (x := instPos.sub instPosX) rfl
  have h1 := C26_sub_fewer_axes instPos instPosX c (fun _ ha => if_neg ha) h
  trivial
example := C28_update instPos [(.Z, 4), (.X, 0)] (by decide)
example := C28_make xyz .mm [(.Z, 4), (.X, 0)] (by decide)

/-! ## Crop -/

example : True := by
  obtain ⟨ss, h⟩ := crop_trace
  have hw := trace_wf h (newWith_wf _ _)
  have hp : ∀ s ∈ ss, (cropPreamble s.before.copy).2 = none := by
    intro s hs
    obtain ⟨n, hn⟩ := Option.ne_none_iff_exists'.1 (crop_planes h s hs)
    rw [preamble_eq s.before (hw s hs).1 (hw s hs).2 n hn]
  have h1 := C63_selected (fun n _ => .ok (decide (n = 2))) (fun n _ => .ok (decide (n = 4))) (fun s => decide (s.n = 2))
    (fun s => decide (s.n = 4)) h (fun _ _ => rfl) (fun _ _ => rfl) hp
  trivial
example := C63_all 3 instPos [⟨'N', .gt, 2⟩, ⟨'X', .lt, 5⟩] (fun _ => true) (by decide +kernel)

/-! ## Floats -/

theorem denotes_tenth : DenotesNum "0.1".toList (((1 : ℤ) : ℚ) / 10 ^ 1) :=
  ⟨[], ['0'], ['1'], by simp [Blank], by simp [Digits], by simp [Digits], false, true, by simp, by simp,
    by decide +kernel⟩
theorem denotes_code : DenotesNum "38.2".toList (((382 : ℕ) : ℚ) / 10 ^ 1) :=
  ⟨[], ['3', '8'], ['2'], by simp [Blank], by simp [Digits], by simp [Digits], false, true, by simp, by simp,
    by decide +kernel⟩

example := C71_read_print "0.1".toList 1 1 (by norm_num) (by norm_num) denotes_tenth
example := C71_stable ⟨'X', .num (5 / 2)⟩ (by decide) print_x
example := C71_codes "38.2".toList 382 1 (by norm_num) (by norm_num) (by decide) denotes_code
example := C72_still (F64.of 0) (F64.of 0) (F64.of (1 / 10)) (by decide +kernel) (by decide +kernel)
  (nearest_isDouble (abs_nonneg _)) (by decide +kernel)

theorem take_prefix {α : Type} {P : List α → Prop} {ds : List α} (h : ∀ k ≤ ds.length, P (ds.take k)) :
    ∀ l, l <+: ds → P l := by
  intro l hl
  rw [List.prefix_iff_eq_take.1 hl]
  exact h _ hl.length_le

/-- Three steps from 0.1, with an offset. -/
example := C72_drift [F64.of (1 / 10), F64.of (-3), F64.of (7 / 3)] (F64.of 5) (F64.of (1 / 3)) (F64.of (1 / 10)) (1 / 10) 10
  (by norm_num) (by decide +kernel) (by decide +kernel) (by decide +kernel)
  (take_prefix (P := fun l => |(1 / 10 : ℚ) + (l.map F64.val).sum| ≤ 10) (by decide +kernel)) (by decide +kernel)
example := C72_machine tenSteps relMachine rel_wf rel_sys rel_synced ⟨.incrementalDistanceMode, ⟨'G', .num 91⟩, [], false⟩ rfl
  (by decide +kernel) step_ok .X (by decide) 100 (by norm_num) (by decide +kernel) (by decide +kernel) (by decide +kernel)
  (take_prefix (P := fun l => |relMachine.absPos.val .X + (l.map (fun g => given g .X)).sum| ≤ 100) (by decide +kernel))
  (by norm_num [tenSteps])

/-! ## Expansion -/

example : True := by
  have hp : ∀ g ∈ omitStream, PlainCode g := by
    intro g hg
    simp only [omitStream, List.mem_cons, List.not_mem_nil, or_false] at hg
    rcases hg with rfl | rfl | rfl | rfl | rfl | rfl
    · exact plain_move .rapidMove 0 (by decide) [('Z', 5)] (by decide) (by decide +kernel) (by decide) (by decide)
    · exact plain_move .linearMove 1 (by decide) [('X', 1)] (by decide) (by decide +kernel) (by decide) (by decide)
    · exact plain_move .linearMove 1 (by decide) [('Y', -2)] (by decide) (by decide +kernel) (by decide) (by decide)
    · exact plain_move .linearMove 1 (by decide) [] (by decide) (by decide +kernel) (by decide) (by decide)
    · refine ⟨⟨by decide, by simp⟩, by unfold Named; decide +kernel, rfl, ?_, by decide⟩
      intro w hw
      exact plainB_sound ((List.all_eq_true (p := plainB)).1 (by decide +kernel) w hw)
    · exact plain_move .linearMove 1 (by decide) [('X', 3)] (by decide) (by decide +kernel) (by decide) (by decide)
  have := C47_same omitStream hp
  trivial

/-- The machine after G91 and G99. -/
def relReturnMachine : Machine := { sampleMachine with
  mode := Function.update (Function.update sampleMode 3 (some ⟨.incrementalDistanceMode, ⟨'G', .num 91⟩, [], false⟩)) 10
    (some ⟨.cannedCycleReturnToR, ⟨'G', .num 99⟩, [], false⟩) }

/-- The position of a machine that has one. -/
def posOf (m : Machine) : Position :=
  match m.pos with
  | .ok p => p
  | .error _ => Position.make xyz .mm []

theorem posOf_eq {m : Machine} (h : (match m.pos with | .ok _ => true | .error _ => false) = true) : m.pos = .ok (posOf m) := by
  unfold posOf
  cases hp : m.pos with
  | ok p => rfl
  | error e => rw [hp] at h; cases h

example : True := by
  have hp := posOf_eq (m := relReturnMachine) (by decide +kernel)
  have := C49_g99_incremental 9 ⟨.drillingCycle, ⟨'G', .num 81⟩, [⟨'X', .num 4⟩, ⟨'Y', .num 0⟩, ⟨'Z', .num (-3)⟩, ⟨'R', .num 1⟩,
      ⟨'L', .num 2⟩], false⟩ ⟨by decide +kernel, by decide +kernel⟩ ⟨by decide +kernel, by decide +kernel⟩ relReturnMachine
    ⟨sample_wf.abs, sample_wf.absWF, sample_wf.sys, sample_wf.off, sample_wf.offWF, sample_wf.lo, sample_wf.hi⟩ sample_sys
    (by
      intro g hg
      apply sample_synced g
      rw [← hg]
      decide +kernel)
    (by decide) _ hp ⟨.selectXYPlane, ⟨'G', .num 17⟩, [], false⟩ (by decide +kernel) rfl ⟨_, rfl, by decide +kernel⟩
    (by decide +kernel) _ (Prod.ext rfl (by decide +kernel)) (by decide +kernel) (by decide +kernel)
  trivial

/-! ## `pygcode-norm` -/

example := C80_listed expandOpts rfl rfl rfl (by
    intro w hw
    simp only [expandOpts, List.mem_cons, List.not_mem_nil, or_false] at hw
    rcases hw with rfl | rfl
    · exact ⟨.drillingCycle, by decide +kernel, by decide⟩
    · exact ⟨.drillingCyclePeck, by decide +kernel, by decide⟩)
  20 expandSample newNull (reader_null xyz).sound rfl (Finset.Subset.refl _)
  (linesExpandB_sound _ (by decide +kernel)) (oneListedB_sound _ (by decide +kernel)) (by decide +kernel)

/-- Finishing on a machine at (-11, 0, -2): no gcode is printed for the height 5 given. -/
example := C69_finish { zeroXY := true, zeroZ := true, safety := some 5 } rfl (m := newNull) (b := newNull)
  ⟨rfl, rfl, rfl, rfl, fun _ _ => .none⟩ (reader_null xyz).sound (Finset.Subset.refl _) (posOf_eq (by decide +kernel)) 5 (fun _ => ⟨rfl, 5, 0, by omega, by simp, by simp⟩)

/-- A decidable form of `NoneListed`. -/
def noneListedB (rm : List Word) (m : Machine) : List (List Char) → Bool
  | [] => true
  | t :: ts =>
    (match Line.ofText t with
      | .ok l => match m.blockModalGcodes l.block with
        | .ok gs => gs.all fun g => decide (g.word ∉ rm)
        | .error _ => true
      | .error _ => true) && noneListedB rm (m.processStr t).1 ts

theorem noneListedB_sound {rm : List Word} (ts : List (List Char)) :
    ∀ {m : Machine}, noneListedB rm m ts = true → NoneListed rm m ts := by
  induction ts with
  | nil => exact fun _ => trivial
  | cons t ts ih =>
    intro m h
    unfold noneListedB at h
    rw [Bool.and_eq_true] at h
    refine ⟨?_, ih h.2⟩
    intro l gs hl hgs g hg
    have h1 := h.1
    rw [hl] at h1
    simp only at h1
    rw [hgs] at h1
    exact of_decide_eq_true (List.all_eq_true.1 h1 g hg)

/-- The program does not have the listed word. -/
example := C77_unlisted { rmGcodes := [⟨'G', .num 4⟩], full := true } rfl rfl 0 ["G90 G1 X1 F100".toList, "Y2".toList] newNull
  (noneListedB_sound _ (by decide +kernel))

example : arcLinMethods ['i', ',', 'o'] = .ok (.inside, .outside) := (C74_meaning _ (by simp) .inside .outside).2 ⟨_, .inl rfl, .two .inner .outer⟩
example := C74_direction ['i', ',', 'o'] .inside .outside (.two .inner .outer) true (1 / 10)
example : arcLinMethods ['i', ',', 'O'] = .error .key :=
  (C74_capital _ (by simp)).2.1.2 ⟨⟨_, .inl rfl, 'i', by decide, .inr ⟨'O', by decide, rfl⟩⟩, 'O', by decide⟩

end Pygcode
