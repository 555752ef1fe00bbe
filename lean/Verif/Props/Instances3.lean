import Verif.Props.Instances2
import Verif.Props.Construct
import Verif.Props.Crop
import Verif.Props.Texts
import Verif.Props.Float
import Verif.Props.Omit
import Verif.Props.NormArgs
import Verif.Props.NormRemove
import Verif.Props.NormInvalid

/-! # The hypotheses of the cycle, crop, text and object theorems hold for concrete inputs -/

namespace Pygcode
open Spec Machine Props

/-! ## Canned cycles -/

theorem drill_cycle : IsCycle sampleDrill := ⟨by decide +kernel, by decide +kernel⟩

/-- The start of the sample cycle. -/
def instStart : Position := Position.make xyz .mm [(.X, 7), (.Z, 5)]

theorem inst_start_wf : instStart.WF := fun _ ha => if_neg ha

/-- A machine standing there. -/
def startMachine : Machine := { newWith xyz sampleMode with absPos := instStart }

theorem start_ready : Ready startMachine instStart.axes false instStart.val where
  wf := by
    have h := newWith_wf xyz sampleMode
    exact ⟨rfl, inst_start_wf, h.sys, h.off, h.offWF, h.lo, h.hi⟩
  good := by rintro ⟨h, -⟩; simp [startMachine, newWith, State.new] at h
  synced := by
    intro g hg
    have h : startMachine.mode.coordSystem = some ⟨.selectCoordinateSystem1, ⟨'G', .num 54⟩, [], false⟩ := by decide +kernel
    rw [h] at hg; cases hg
    decide +kernel
  axes := rfl
  inc := by decide +kernel
  at_ := by intro a; cases a <;> decide +kernel

theorem drill_done : simplify 9 sampleDrill instStart .selectXYPlane false true instStart.axes =
    ((simplify 9 sampleDrill instStart .selectXYPlane false true instStart.axes).1, .done) :=
  Prod.ext rfl (by decide +kernel)

example := C50_depths 9 sampleDrill drill_cycle instStart inst_start_wf (by decide) false true _ drill_done startMachine start_ready
/-- With the surface at height 1 everywhere, the path is safe. -/
example := C52_safe 9 sampleDrill drill_cycle instStart inst_start_wf (by decide) false true _ drill_done startMachine start_ready
  (fun _ _ => 1) (fun _ _ => by decide +kernel) (by decide +kernel) (.inl rfl)
example := C51_terminates_partial sampleDrill drill_cycle instStart .selectXYPlane false true instStart.axes
  (by rintro (h | h) <;> exact absurd h (by decide +kernel))
example := (C53_success_partial sampleDrill instStart inst_start_wf (by decide) .selectXYPlane (by decide +kernel)
  (by decide +kernel) false true).1 ⟨9, _, drill_done⟩
example := C49_L0 9 { sampleDrill with params := ⟨'L', .num 0⟩ :: sampleDrill.params.take 4 }
  ⟨by decide +kernel, by decide +kernel⟩ instStart true 0 (by decide +kernel) (by norm_num)
example := C48_unsupported sampleStream [] stream_ok ⟨.arcMoveCW, ⟨'G', .num 2⟩, [⟨'X', .num 1⟩, ⟨'R', .num 1⟩], false⟩
  ⟨by decide +kernel, by decide +kernel⟩ (.inl (by decide +kernel)) (by unfold IsMove; decide +kernel) .done instStart
  inst_start_wf

theorem stuck_complete : Complete sampleStuck := by
  unfold Complete; decide +kernel

example := C51_never_refuted sampleStuck ⟨by decide +kernel, by decide +kernel⟩ (.inl rfl) (by decide +kernel) stuck_complete
  instStart inst_start_wf (by decide) false true (by decide +kernel) (by decide +kernel) 1000
example := C53_dwell 9 sampleDwell rfl (by unfold Complete; decide +kernel) instStart (by decide) true (by decide +kernel)
  (by decide +kernel) xyz

/-- G81 below the bottom of the hole with G98: the last move plunges. -/
example : ∃ s : Position, s.val .Z = -5 ∧ ∀ m : Machine, Ready m s.axes false s.val →
    ¬ SafePath 2 (fun _ _ => 0) s.val (track m [rapidZ 2, rapidXY 4 1, feedZ (-3), rapidZ (-5)]) := by
  refine ⟨Position.make xyz .mm [(.Z, -5)], by decide +kernel, fun m hm => ?_⟩
  exact C52_plunge 9 { sampleDrill with params := sampleDrill.params.take 4 } ⟨by decide +kernel, by decide +kernel⟩
    _ (fun _ ha => if_neg ha) (by decide) _ (by decide +kernel) (by decide +kernel) m hm _
    (fun _ _ => by decide +kernel) (by decide +kernel)

/-! ## Crop -/

theorem crop_trace : ∃ ss, CropTrace 0 newNull cropFour ss := trace_exists cropFour 0 newNull (by decide +kernel)

theorem crop_planes {ss : List CropStep} (h : CropTrace 0 newNull cropFour ss) :
    ∀ s ∈ ss, normalOf s.before.mode ≠ none := by
  intro s hs
  obtain ⟨h1, h2⟩ := trace_numbers h
  obtain ⟨k, hk, rfl⟩ := List.getElem_of_mem hs
  have hn := h2 k hk
  rw [(trace_before h _ hs).2, hn]
  have h4 : k < 4 := by rw [h1] at hk; exact hk
  have : k = 0 ∨ k = 1 ∨ k = 2 ∨ k = 3 := by omega
  rcases this with rfl | rfl | rfl | rfl <;> decide +kernel

example : True := by
  obtain ⟨ss, h⟩ := crop_trace
  have h1 := C63_numbers 2 4 (by norm_num) (by norm_num) h (by decide) (crop_planes h)
  have h2 := C63_no_line 9 12 h (.inr (by decide))
  trivial
example := C63_no_normal { newNull with mode := Function.update Mode.null 2 (some ⟨.selectUVPlane, ⟨'G', .num (171 / 10)⟩, [], false⟩) }
  _ rfl (by decide +kernel) (by decide +kernel)

/-! ## Texts and objects -/

example := C71_absorbed (F64.of (1 / 10)) (by decide +kernel) 1 1 (by norm_num) (by norm_num) (by decide +kernel)
example := C22_set sampleMove move_ok 'X' (5 / 2) (by decide +kernel)
example := C22_readback 'X' (5 / 2) ⟨'X', .num (5 / 2)⟩ (by decide +kernel) (by decide)
example := C23_modal_copy sampleCycle sample_cycle_ok
example := C24_eq_iff sampleMove sampleMove move_ok move_ok
example := C10_semicolon "G1 X1 ".toList " note ; more".toList (by decide) (by decide)
example := C12_macro "G1 (a) ".toList "mac ro".toList (by decide) (by decide)
example := C12_plain "G1 X1".toList "  ".toList (by decide) (by decide) (by unfold Blank; decide) (by decide)
example := C12_newline "G1".toList "X1".toList (by unfold Blank; decide) (by decide)
example := C11_brackets "G1 (a)X1(b)".toList "G1 X1".toList ["a".toList, "b".toList] (by decide) (by decide)
  (.span (a := "G1 ".toList) (c := "a".toList) (by decide) (by decide)
    (.span (a := "X1".toList) (c := "b".toList) (by decide) (by decide)
      (.plain (t := []) (by intro a b h; cases a <;> cases h))))
example := C70_same_block (t := " G1  X1 ".toList) (u := "G1 X1".toList) (ts := ["G1".toList, "X1".toList])
  (.cons (a := " ".toList) (s := "G1".toList) (r := "  X1 ".toList) (by unfold Blank; decide) (by decide) (by decide) (by decide)
    (.cons (a := "  ".toList) (s := "X1".toList) (r := " ".toList) (by unfold Blank; decide) (by decide) (by decide) (by decide)
      (.nil (by unfold Blank; decide))))
  (.cons (a := []) (s := "G1".toList) (r := " X1".toList) (by unfold Blank; decide) (by decide) (by decide) (by decide)
    (.cons (a := " ".toList) (s := "X1".toList) (r := []) (by unfold Blank; decide) (by decide) (by decide) (by decide)
      (.nil (by unfold Blank; decide)))) true
example := C19_verify "G1 X1 Q4".toList [⟨'G', .num 1⟩, ⟨'X', .num 1⟩, ⟨'Q', .num 4⟩]
  [⟨.linearMove, ⟨'G', .num 1⟩, [⟨'X', .num 1⟩], false⟩] [⟨'Q', .num 4⟩] (by decide +kernel) (by decide +kernel)
example := C76_params .linearMove ⟨'G', .num 1⟩ (by decide +kernel) [('X', 5), ('Z', -1)] (by decide +kernel) (by decide)
example := C76_rejected .dwell [('P', 1), ('X', 5)] ('X', 5) (by decide) (by decide +kernel)
example := C76_complete "G1 X1 M3".toList [⟨.linearMove, ⟨'G', .num 1⟩, [⟨'X', .num 1⟩], false⟩,
  ⟨.startSpindleCW, ⟨'M', .num 3⟩, [], false⟩] (by decide +kernel)
example := C76_incomplete "G1 X1 Q4".toList [⟨'G', .num 1⟩, ⟨'X', .num 1⟩, ⟨'Q', .num 4⟩] (by decide +kernel) _
  (roleOf_grouping _) [⟨.linearMove, ⟨'G', .num 1⟩, [⟨'X', .num 1⟩], false⟩] [⟨'Q', .num 4⟩] (by decide +kernel)
example : True := by
  obtain ⟨gs, h⟩ := exists_ok (x := sampleMachine.blockModalGcodes ⟨[], instCancel, instModal⟩) (by decide +kernel)
  have := C75_len sampleMachine (fun g h => ⟨(sample_mode_ok 1 g h).2.1, sample_named 1 g h⟩) rfl
    ⟨[], instCancel, instModal⟩ inst_modal_free gs h
  trivial

/-- The machine after G99. -/
def returnMachine : Machine :=
  { sampleMachine with mode := Function.update sampleMode 10 (some ⟨.cannedCycleReturnToR, ⟨'G', .num 99⟩, [], false⟩) }

example := C45_missing_R returnMachine
  ⟨sample_wf.abs, sample_wf.absWF, sample_wf.sys, sample_wf.off, sample_wf.offWF, sample_wf.lo, sample_wf.hi⟩
  sample_sys
  (by
    intro g hg
    apply sample_synced g
    rw [← hg]
    decide +kernel)
  ⟨.drillingCycle, ⟨'G', .num 81⟩, [⟨'X', .num 5⟩, ⟨'Z', .num (-1)⟩], false⟩ ⟨by decide +kernel, by decide +kernel⟩
  (by decide +kernel) (by decide +kernel) (by decide +kernel) ⟨.selectXYPlane, ⟨'G', .num 17⟩, [], false⟩ (by decide +kernel) .Z
  (by decide +kernel) (by decide) ⟨_, rfl, by decide +kernel⟩ (by decide +kernel)
example := C43_unit_gcode_partial sampleMachine sample_synced ⟨.useInches, ⟨'G', .num 20⟩, [], false⟩
  ⟨by decide +kernel, by decide +kernel⟩ (by decide +kernel)
example := C79_printed _ _
  (.cons ⟨'G', .num 81⟩ (a := " ".toList) (b := " ".toList) (by unfold Blank; decide) (by unfold Blank; decide) (.one ⟨'M', .num 6⟩))
  (fun w hw => plainB_sound ((List.all_eq_true (p := plainB)).1 (by decide +kernel) w hw))

end Pygcode
