import Verif.Props.Instances
import Verif.Props.Grouping
import Verif.Props.LinePrint
import Verif.Props.ModePrint
import Verif.Props.Comments
import Verif.Props.Norm
import Verif.Props.NormFinish
import Verif.Props.CropPreamble
import Verif.Props.ArcAccept

/-! # The hypotheses of the reading, printing, mode and arc theorems hold for concrete inputs

Continues `Instances`: each example applies a theorem with every hypothesis discharged. -/

namespace Pygcode
open Spec Machine Props Pl

/-- The value of a computation that does not fail. -/
theorem exists_ok {α : Type} {x : Except Err α} (h : x.isOk = true) : ∃ a, x = .ok a := by
  cases x with
  | ok a => exact ⟨a, rfl⟩
  | error e => cases h

/-! ## Grouping -/

/-- The words of `G1 X1 Y-2 F100 M3 Z5 Q4`. -/
def instWords : List Word := [⟨'G', .num 1⟩, ⟨'X', .num 1⟩, ⟨'Y', .num (-2)⟩, ⟨'F', .num 100⟩, ⟨'M', .num 3⟩, ⟨'Z', .num 5⟩,
  ⟨'Q', .num 4⟩]

/-- Its gcodes. -/
def instGcodes : List GCode := [⟨.linearMove, ⟨'G', .num 1⟩, [⟨'X', .num 1⟩, ⟨'Y', .num (-2)⟩, ⟨'Z', .num 5⟩], false⟩,
  ⟨.feedRate, ⟨'F', .num 100⟩, [], false⟩, ⟨.startSpindleCW, ⟨'M', .num 3⟩, [], false⟩]

theorem inst_grouped : words2gcodes instWords = .ok (instGcodes, [⟨'Q', .num 4⟩]) := by decide +kernel

example := C17_result _ _ _ inst_grouped (roleOf instWords) (roleOf_grouping instWords)
example := C18_params _ _ _ inst_grouped
example := C16_conserved _ _ _ inst_grouped
example := C16_order _ _ _ inst_grouped
/-- `G1 X1 X2` repeats a parameter. -/
example : Repeated [⟨'G', .num 1⟩, ⟨'X', .num 1⟩, ⟨'X', .num 2⟩]
    (roleOf [⟨'G', .num 1⟩, ⟨'X', .num 1⟩, ⟨'X', .num 2⟩]) :=
  ((C18_error_iff _ .param _ (roleOf_grouping _)).1 (by decide +kernel)).2

/-! ## Printing -/

/-- `G1 X1 F100 M3 P5`: the left-over word P is a parameter of none of the gcodes. -/
def instBlock : Block := ⟨[⟨'G', .num 1⟩, ⟨'X', .num 1⟩, ⟨'F', .num 100⟩, ⟨'M', .num 3⟩, ⟨'P', .num 5⟩],
  [⟨.linearMove, ⟨'G', .num 1⟩, [⟨'X', .num 1⟩], false⟩,
  ⟨.feedRate, ⟨'F', .num 100⟩, [], false⟩, ⟨.startSpindleCW, ⟨'M', .num 3⟩, [], false⟩], [⟨'P', .num 5⟩]⟩

theorem inst_block : Block.ofText "g1x1f100m3p5".toList = .ok instBlock := by decide +kernel
theorem inst_block_plain : ∀ w ∈ instBlock.words, PlainWord w := fun w hw =>
  plainB_sound ((List.all_eq_true (p := plainB)).1 (by decide +kernel) w hw)
theorem inst_block_apart : ∀ g ∈ instBlock.gcodes, ∀ w ∈ instBlock.modalParams, w.letter ∉ g.cls.params := by
  decide +kernel

example := C20_meaning _ _ inst_block inst_block_plain inst_block_apart
example := C20_words instBlock.words instBlock.gcodes instBlock.modalParams (by decide +kernel) inst_block_apart
example := C21_exec_order _ _ inst_block inst_block_plain inst_block_apart _ (execSort_stable instBlock.gcodes)
example := C21_words instBlock.words _ instBlock.modalParams (by decide +kernel) _ (execSort_stable instBlock.gcodes)
example := C13_stable "g1x1f100(to)m3p5 (right)".toList ⟨instBlock, some (.brackets "to. right".toList), none⟩
  (by decide +kernel) inst_block_plain inst_block_apart (.inl rfl)
example := C14_semicolon_partial "G1 X1 ".toList "fast".toList "slow (".toList (by decide) (by decide) (by decide)

/-! ## Modes -/

theorem sample_slots {k : ℕ} {g : GCode} (h : sampleMachine.mode k = some g) :
    (k, g) ∈ [(1, (⟨.rapidMove, ⟨'G', .num 0⟩, [], false⟩ : GCode)), (2, ⟨.selectXYPlane, ⟨'G', .num 17⟩, [], false⟩),
      (3, ⟨.absoluteDistanceMode, ⟨'G', .num 90⟩, [], false⟩),
      (12, ⟨.selectCoordinateSystem1, ⟨'G', .num 54⟩, [], false⟩)] := by
  have h' : sampleMode k = some g := h
  unfold sampleMode at h'
  split_ifs at h' with h1 h2 h3 h4 <;> cases h' <;> subst_vars <;> simp

theorem sample_all {P : ℕ → GCode → Prop}
    (h1 : P 1 ⟨.rapidMove, ⟨'G', .num 0⟩, [], false⟩) (h2 : P 2 ⟨.selectXYPlane, ⟨'G', .num 17⟩, [], false⟩)
    (h3 : P 3 ⟨.absoluteDistanceMode, ⟨'G', .num 90⟩, [], false⟩)
    (h4 : P 12 ⟨.selectCoordinateSystem1, ⟨'G', .num 54⟩, [], false⟩) (k : ℕ) (g : GCode)
    (h : sampleMachine.mode k = some g) : P k g := by
  have := sample_slots h
  simp only [List.mem_cons, List.not_mem_nil, or_false, Prod.mk.injEq] at this
  rcases this with ⟨rfl, rfl⟩ | ⟨rfl, rfl⟩ | ⟨rfl, rfl⟩ | ⟨rfl, rfl⟩ <;> assumption

theorem sample_named : ModeAll Named sampleMachine.mode := by
  intro k g h
  refine sample_all (P := fun _ g => Named g) ?_ ?_ ?_ ?_ k g h <;> (unfold Named; decide +kernel)

theorem sample_mode_ok : ModeOK sampleMachine.mode := by
  intro k g h
  refine sample_all (P := fun k g => g.cls.group = some k ∧ GOK g ∧ ∀ p ∈ g.params, p.letter ∈ g.cls.modalParams)
    ?_ ?_ ?_ ?_ k g h <;> exact ⟨by decide +kernel, ⟨by decide +kernel, by decide +kernel⟩, by simp⟩

theorem sample_ws : ∀ k g, sampleMachine.mode k = some g → g.ws = false := by
  intro k g h
  refine sample_all (P := fun _ g => g.ws = false) ?_ ?_ ?_ ?_ k g h <;> rfl

theorem sample_printable : PrintableMode sampleMachine.mode where
  ok := sample_mode_ok
  named := sample_named
  ws := sample_ws
  plain := by
    intro k g h
    refine sample_all (P := fun _ g => ∀ w ∈ g.word :: g.params, PlainWord w) ?_ ?_ ?_ ?_ k g h <;>
      exact fun w hw => plainB_sound ((List.all_eq_true (p := plainB)).1 (by decide +kernel) w hw)
  noG96S := by
    intro g s h
    have : sampleMachine.mode 14 = none := by decide +kernel
    rw [this] at h; cases h

/-- Calls of all kinds, one of which raises an exception. -/
def instCalls : List Call := [.str "G91 G1 X1".toList, .str "Q9".toList, .gcode sampleMove,
  .gcodes [sampleMove] [], .setMode [⟨.selectZXPlane, ⟨'G', .num 18⟩, [], false⟩],
  .setPos (Position.make xyz .mm [(.X, 5)])]

theorem inst_calls_ok : ∀ c ∈ instCalls, c.OK sampleMachine.axes sampleMachine.absPos.unit := by
  intro c hc
  simp only [instCalls, List.mem_cons, List.not_mem_nil, or_false] at hc
  rcases hc with rfl | rfl | rfl | rfl | rfl | rfl
  · exact trivial
  · exact trivial
  · exact move_ok
  · exact fun g hg => by rw [List.mem_singleton.1 hg]; exact move_ok
  · exact fun g hg => by rw [List.mem_singleton.1 hg]; exact ⟨by decide +kernel, by decide +kernel⟩
  · exact ⟨rfl, rfl, fun a ha => if_neg ha⟩

theorem inst_calls_named : ∀ c ∈ instCalls, c.All Named := by
  intro c hc
  simp only [instCalls, List.mem_cons, List.not_mem_nil, or_false] at hc
  rcases hc with rfl | rfl | rfl | rfl | rfl | rfl
  · exact trivial
  · exact trivial
  · show Named _; unfold Named; decide +kernel
  · exact fun g hg => by rw [List.mem_singleton.1 hg]; unfold Named; decide +kernel
  · exact fun g hg => by rw [List.mem_singleton.1 hg]; unfold Named; decide +kernel
  · exact trivial

example := C35_history instCalls sampleMachine sample_wf sample_mode_ok inst_calls_ok
example := C35_named instCalls sampleMachine sample_wf sample_named inst_calls_ok inst_calls_named
example := C33_monotone sampleMachine sample_wf instCalls inst_calls_ok .X (by decide)
example := C33_box xyz sampleMode instCalls inst_calls_ok
example := C42_history instCalls sampleMachine sample_wf sample_synced inst_calls_ok
example := C40_reachable instCalls sampleMachine sample_wf sample_mode_ok sample_named sample_ws inst_calls_ok inst_calls_named
example := C40_reproduced _ sample_printable
example := C40_executed _ sample_printable
  (fun g h => sample_all (P := fun _ g => g.cls.proc ≠ .canned) (by decide +kernel) (by decide +kernel) (by decide +kernel)
    (by decide +kernel) 1 g h) relMachine rel_wf _ rfl

/-- `M5 G91 G90`, in that order. -/
def instModes : List GCode := [⟨.stopSpindle, ⟨'M', .num 5⟩, [], false⟩,
  ⟨.incrementalDistanceMode, ⟨'G', .num 91⟩, [], false⟩, ⟨.absoluteDistanceMode, ⟨'G', .num 90⟩, [], false⟩]

theorem inst_modes_ok : ∀ g ∈ instModes, GOK g := by
  intro g hg
  simp only [instModes, List.mem_cons, List.not_mem_nil, or_false] at hg
  rcases hg with rfl | rfl | rfl <;> exact ⟨by decide +kernel, by decide +kernel⟩

example := C36_set_mode sampleMode instModes _ inst_modes_ok (execSort_stable instModes)
example := C36_machine sampleMachine instModes inst_modes_ok
example := C36_assign sampleMode 3 (some ⟨.incrementalDistanceMode, ⟨'G', .num 91⟩, [], false⟩)
  (fun g h => by cases h; exact ⟨by decide +kernel, by decide +kernel⟩)
example := C35_assign sampleMachine.mode _ sample_mode_ok 3 none (by simp) rfl

/-! ## Left-over words and execution order -/

theorem sample_motion : sampleMachine.mode.motion = some ⟨.rapidMove, ⟨'G', .num 0⟩, [], false⟩ := by decide +kernel
theorem rapid_ok : GOK ⟨.rapidMove, ⟨'G', .num 0⟩, [], false⟩ ∧ Named ⟨.rapidMove, ⟨'G', .num 0⟩, [], false⟩ :=
  ⟨⟨by decide +kernel, by decide +kernel⟩, by unfold Named; decide +kernel⟩

/-- `X3 Y-1` -/
def instModal : List Word := [⟨'X', .num 3⟩, ⟨'Y', .num (-1)⟩]

theorem inst_modal_free : ∀ w ∈ instModal, wordClass w = none := by decide +kernel

example := C37_modal sampleMachine _ sample_motion rapid_ok.1 rapid_ok.2 instModal (by decide) inst_modal_free
  (.inr (by decide +kernel))
example := C37_explicit sampleMachine _ sample_motion rapid_ok.1 rapid_ok.2 rfl instModal (by decide) inst_modal_free
  (by decide +kernel) (by decide)
example := C37_plain sampleMachine.mode sample_mode_ok _ sample_motion (by decide +kernel)

/-- `G99 M3 G81 X5`: the cycle has no depth. -/
def instFails : List GCode := [⟨.cannedCycleReturnToR, ⟨'G', .num 99⟩, [], false⟩, ⟨.startSpindleCW, ⟨'M', .num 3⟩, [], false⟩,
  sampleMove, ⟨.drillingCycle, ⟨'G', .num 81⟩, [⟨'X', .num 5⟩], false⟩, sampleMove]

theorem inst_fails_ok : ∀ g ∈ instFails, GOK g := by
  intro g hg
  simp only [instFails, List.mem_cons, List.not_mem_nil, or_false] at hg
  rcases hg with rfl | rfl | rfl | rfl | rfl <;> exact ⟨by decide +kernel, by decide +kernel⟩

example := C39_prefix sampleMachine sample_wf instFails inst_fails_ok _ .type (Prod.ext rfl (by decide +kernel))
example := C44_clean sampleMachine (fun g h => sample_named 1 g h)
  ⟨[], [⟨.absoluteDistanceMode, ⟨'G', .num 90⟩, [], false⟩], [⟨'X', .num 1⟩, ⟨'Q', .num 2⟩, ⟨'Y', .num 3⟩]⟩ (by decide +kernel)
example := C44_idempotent sampleMachine (fun g h => ⟨(sample_mode_ok 1 g h).2.1, sample_named 1 g h⟩)
  ⟨[], [⟨.absoluteDistanceMode, ⟨'G', .num 90⟩, [], false⟩], [⟨'X', .num 1⟩, ⟨'Q', .num 2⟩, ⟨'Y', .num 3⟩]⟩
  ⟨[], [⟨.absoluteDistanceMode, ⟨'G', .num 90⟩, [], false⟩], [⟨'X', .num 1⟩, ⟨'Y', .num 3⟩]⟩ (by decide +kernel) (by decide +kernel)

/-- `G80 G91 S100` -/
def instCancel : List GCode := [⟨.cancelCannedCycle, ⟨'G', .num 80⟩, [], false⟩,
  ⟨.incrementalDistanceMode, ⟨'G', .num 91⟩, [], false⟩, ⟨.spindleSpeed, ⟨'S', .num 100⟩, [], false⟩]

theorem inst_cancel_ok : ∀ g ∈ instCancel, GOK g := by
  intro g hg
  simp only [instCancel, List.mem_cons, List.not_mem_nil, or_false] at hg
  rcases hg with rfl | rfl | rfl <;> exact ⟨by decide +kernel, by decide +kernel⟩

theorem inst_cancel_conflict : ¬ Conflict instCancel := (assert_conflict _).1 (by decide +kernel)

example := C38_order sampleMachine instCancel instCancel.reverse instModal (List.reverse_perm _).symm inst_cancel_conflict
  inst_cancel_ok
example := C46_cancel sampleMachine sample_wf instCancel inst_cancel_ok inst_cancel_conflict _ List.mem_cons_self rfl _
  (Prod.ext rfl (by decide +kernel))
/-- The machine after G80. -/
def cancelled : Machine := { sampleMachine with mode := Function.update sampleMode 1 none }

example := C46_refused_after cancelled
  ⟨sample_wf.abs, sample_wf.absWF, sample_wf.sys, sample_wf.off, sample_wf.offWF, sample_wf.lo, sample_wf.hi⟩
  rfl (by decide +kernel) instCancel inst_cancel_ok instModal

/-! ## Moves -/

/-- `G1 X0`, three times. -/
def stillSteps : List GCode := List.replicate 3 ⟨.linearMove, ⟨'G', .num 1⟩, [⟨'X', .num 0⟩], false⟩

example := C32_zero stillSteps relMachine rel_wf rel_sys rel_synced _ rfl (by decide +kernel)
  (by
    intro g hg
    rw [List.eq_of_mem_replicate hg]
    exact ⟨⟨by decide +kernel, by decide +kernel⟩, .inl (by decide +kernel)⟩)
  (by
    intro g hg
    rw [List.eq_of_mem_replicate hg]
    decide +kernel)
example := C34_only_motion sampleMachine ⟨.startSpindleCW, ⟨'M', .num 3⟩, [], false⟩ (by decide +kernel) (by decide +kernel)
example := C34_dwell_cancel sampleMachine ⟨.dwell, ⟨'G', .num 4⟩, [⟨'P', .num 2⟩], false⟩
  ⟨by decide +kernel, by decide +kernel⟩ (.inl rfl)
example := C42_select sampleMachine sample_wf _ rfl ⟨.selectCoordinateSystem2, ⟨'G', .num 55⟩, [], false⟩
  ⟨by decide +kernel, by decide +kernel⟩ 2 (by decide +kernel) (by decide +kernel)

/-! ## pygcode-norm and pygcode-crop -/

example := C66_same_partial { full := true } rfl rfl rfl 0 newNull (newWith_wf _ _) null_ok.1 null_ok.2 normSample _
  (Prod.ext rfl (by decide +kernel)) (linesTidyB_sound _ (by decide +kernel))
example := C66_idempotent { full := true } rfl rfl rfl 0 newNull (newWith_wf _ _) null_ok.1 null_ok.2 normSample _
  (Prod.ext rfl (by decide +kernel)) (linesTidyB_sound _ (by decide +kernel))
example := C69_height finishOpts rfl Mode.null finishSample _ (Prod.ext rfl (by decide +kernel))

theorem new_clear : Clear newNull := ⟨newWith_wf _ _, rfl, ⟨_, rfl, fun _ => ⟨rfl, fun _ => rfl⟩⟩, fun _ => rfl⟩

/-- The file of `cropSample`, with one more line. -/
def cropFour : List (List Char) := ["G90 G17 G1 F100 X1", "Z5", "X2.5 Y-7 Z4", "X3"].map String.toList

/-- Every line is executed without an exception. -/
def traceB (m : Machine) : List (List Char) → Bool
  | [] => true
  | t :: ts => (m.processStr t).2.isNone && (m.processStr t).1.pos.isOk && traceB (m.processStr t).1 ts

theorem trace_exists (ts : List (List Char)) : ∀ (i : ℕ) (m : Machine), traceB m ts = true → ∃ ss, CropTrace i m ts ss := by
  induction ts with
  | nil => exact fun i m _ => ⟨[], .nil i m⟩
  | cons t ts ih =>
    intro i m h
    simp only [traceB, Bool.and_eq_true, Option.isNone_iff_eq_none] at h
    obtain ⟨⟨h1, h2⟩, h3⟩ := h
    obtain ⟨ss, h4⟩ := ih (i + 1) _ h3
    obtain ⟨p, hp⟩ := exists_ok h2
    unfold processStr at h1 hp h4
    cases hl : Line.ofText t with
    | error e => rw [hl] at h1; cases h1
    | ok l =>
      rw [hl] at h1 hp h4
      exact ⟨_, .cons hl (Prod.ext rfl h1) hp h4⟩

theorem crop_step : ∃ ss, CropTrace 0 newNull cropFour ss ∧ ∃ s ∈ ss, s.n = 4 ∧ s.before = cropSample := by
  obtain ⟨ss, h⟩ := trace_exists cropFour 0 newNull (by decide +kernel)
  obtain ⟨h1, h2⟩ := trace_numbers h
  have hlen : ss.length = 4 := h1
  have hmem : ss[3] ∈ ss := List.getElem_mem _
  have hn : ss[3].n = 4 := h2 3 (by omega)
  refine ⟨ss, h, ss[3], hmem, hn, ?_⟩
  rw [(trace_before h _ hmem).2, hn]
  exact cropSample_run

/-- The preamble before line 4 of that file puts a new machine at (2.5, -7, 4), over the height 5. -/
example : ∃ out M', cropPreamble cropSample.copy = (out, none) ∧ readLines newNull out = (M', none) ∧
    (M'.absPos.val .X, M'.absPos.val .Y, M'.absPos.val .Z) = (5 / 2, -7, 4) := by
  obtain ⟨ss, h, s, hs, -, hb⟩ := crop_step
  obtain ⟨out, M', h1, h2, h3, -⟩ := C64_position_partial h s hs .Z (hb ▸ cropSample_croppable) newNull new_clear
    (fun _ => by decide +kernel)
  rw [hb] at h1 h3
  refine ⟨out, M', h1, h2, ?_⟩
  rw [h3, h3, h3]
  decide +kernel

example : True := by
  obtain ⟨ss, h, s, hs, -, hb⟩ := crop_step
  have := C65_level h s hs .Z (hb ▸ cropSample_croppable) newNull new_clear (fun _ => by decide +kernel)
  trivial

/-! ## Arcs -/

/-- `G3 X0 Y1 I-1` from (1, 0), the quarter of a unit circle around the origin. -/
theorem inst_end : sampleArc.arcEnd ⟨1, 0, 0⟩ false = ⟨0, 1, 0⟩ := by
  simp [GCode.arcEnd, sampleArc, GCode.num?, GCode.param, Word.num]

theorem inst_arc : ∃ a, sampleArc.arcOf ⟨1, 0, 0⟩ xy.normal Quat.one false true (1 / 100) = .ok a :=
  (C62_reach xy _ _ _ _ _ _).2 ⟨by decide +kernel, fun r hr => by simp [sampleArc, GCode.num?, GCode.param] at hr⟩

theorem inst_apart : xy.coord ⟨1, 0, 0⟩ ≠ xy.coord (sampleArc.arcEnd ⟨1, 0, 0⟩ false) := by
  rw [inst_end]; intro h; have := congrArg Complex.re h; simp [Pl.coord] at this

/-- The quarter turn is found, and the lines of the method `mid` stay within 1/200 of the circle. -/
example : ∃ a, sampleArc.arcOf ⟨1, 0, 0⟩ xy.normal Quat.one false true (1 / 100) = .ok a ∧ a.radius = 1 ∧
    a.angle = -(Real.pi / 2) ∧ ∃ ls, a.iterVertices .mid = .ok ls ∧ ∀ l ∈ ls, ∀ t, 0 ≤ t → t ≤ 1 →
      1 - 1 / 200 ≤ ‖xy.coord (onSegment l t)‖ ∧ ‖xy.coord (onSegment l t)‖ ≤ 1 + 1 / 200 := by
  obtain ⟨a, ha⟩ := inst_arc
  have hC : xy.coord (sampleArc.arcCenter ⟨1, 0, 0⟩ true) = 0 := by
    apply Complex.ext <;> simp [GCode.arcCenter, sampleArc, GCode.num?, GCode.param, Word.num, Pl.coord, add_mk]
  have hS : xy.coord ⟨1, 0, 0⟩ = 1 := by apply Complex.ext <;> simp [Pl.coord]
  have hI : xy.coord ⟨0, 1, 0⟩ = Complex.I := rfl
  obtain ⟨h1, h2⟩ := C56_given xy _ _ _ _ _ _ a ha inst_apart (by decide +kernel) (by rw [inst_end, hC, hS, hI]; simp)
  rw [hC] at h1 h2
  rw [hS, sub_zero, norm_one] at h2
  obtain ⟨h3, -, h4⟩ := C58_xy_partial _ _ _ _ _ a ha
  obtain ⟨h5, h6⟩ := h4 (by decide +kernel)
  rw [inst_end, hI, h1, hS, sub_zero, sub_zero, mul_one] at h3
  obtain ⟨ls, h7, h8⟩ := C57_error xy _ _ _ _ _ _ a ha inst_apart (by norm_num) (sweeps_xy _ _ _ _ _ a ha) .mid
  refine ⟨a, ha, h2, ?_, ls, h7, fun l hl t ht0 ht1 => ?_⟩
  · have hpi := Real.pi_pos
    have hc : Real.cos a.angle = 0 := by
      have := congrArg Complex.re h3
      rw [show -((a.angle : ℂ) * Complex.I) = ((-a.angle : ℝ) : ℂ) * Complex.I by push_cast; ring,
        Complex.exp_ofReal_mul_I_re, Real.cos_neg] at this
      simpa using this.symm
    have hsn : Real.sin a.angle = -1 := by
      have := congrArg Complex.im h3
      rw [show -((a.angle : ℂ) * Complex.I) = ((-a.angle : ℝ) : ℂ) * Complex.I by push_cast; ring,
        Complex.exp_ofReal_mul_I_im, Real.sin_neg] at this
      simp at this
      linarith
    have h9 : Real.cos (a.angle + Real.pi / 2) = 1 := by rw [Real.cos_add_pi_div_two, hsn, neg_neg]
    obtain ⟨n, hn⟩ := (Real.cos_eq_one_iff _).1 h9
    have hn1 : (n : ℝ) < 1 := by nlinarith
    have hn2 : (-1 : ℝ) < n := by nlinarith
    have : n = 0 := by
      have h1 : n < 1 := by exact_mod_cast hn1
      have h2 : -1 < n := by exact_mod_cast hn2
      omega
    rw [this] at hn
    simp at hn
    linarith
  · have := h8 l hl t ht0 ht1
    simp only [h1, sub_zero, h2] at this
    exact ⟨by linarith [this.1], by linarith [this.2]⟩

/-- A machine standing at (1, 0, 0). -/
def atOne : Machine := { newWith xyz sampleMode with absPos := Position.make xyz .mm [(.X, 1)] }

theorem one_wf : atOne.WF := by
  have h := newWith_wf xyz sampleMode
  exact ⟨rfl, fun a ha => if_neg ha, h.sys, h.off, h.offWF, h.lo, h.hi⟩

theorem one_sys : ¬ atOne.BadSys := by
  rintro ⟨h, -⟩; simp [atOne, newWith, State.new] at h

theorem one_synced : Synced atOne := by
  intro g hg
  have h : atOne.mode.coordSystem = some ⟨.selectCoordinateSystem1, ⟨'G', .num 54⟩, [], false⟩ := by decide +kernel
  rw [h] at hg; cases hg
  decide +kernel

theorem one_abs : ∀ d, atOne.mode.distance = some d → d.cls.isSub .incrementalDistanceMode = false := by
  intro d hd
  have h : atOne.mode.distance = some ⟨.absoluteDistanceMode, ⟨'G', .num 90⟩, [], false⟩ := by decide +kernel
  rw [h] at hd; cases hd; decide +kernel

/-- It ends at (0, 1, 0), as the last line of the arc does. -/
example : ∃ mc' q, atOne.process sampleArc = (mc', none) ∧ mc'.pos = .ok q ∧
    ∃ vs, linearizeArc sampleArc ⟨xyz, .mm, fun a => if a ∈ xyz then (atOne.absPos.val a - atOne.sysOff a -
        atOne.state.offset.val a) else 0⟩ none (some .inside) false true (1 / 100) 3 = (vs, .done) ∧
      vs.getLast? = some ⟨q.val .X, q.val .Y, q.val .Z⟩ := by
  have hv : (⟨xyz, .mm, fun a => if a ∈ xyz then (atOne.absPos.val a - atOne.sysOff a -
        atOne.state.offset.val a) else 0⟩ : Position).vector = ⟨(1 : ℚ), (0 : ℚ), (0 : ℚ)⟩ := by
    unfold Position.vector
    have h1 : (if Axis.X ∈ xyz then (atOne.absPos.val .X - atOne.sysOff .X - atOne.state.offset.val .X) else 0) = 1 := by
      decide +kernel
    have h2 : (if Axis.Y ∈ xyz then (atOne.absPos.val .Y - atOne.sysOff .Y - atOne.state.offset.val .Y) else 0) = 0 := by
      decide +kernel
    have h3 : (if Axis.Z ∈ xyz then (atOne.absPos.val .Z - atOne.sysOff .Z - atOne.state.offset.val .Z) else 0) = 0 := by
      decide +kernel
    simp only [h1, h2, h3]
  obtain ⟨vs, h⟩ := (C62_done sampleArc _ .inside false true (1 / 100) 3 _ hv (by
    simpa using inst_apart)).2
    ⟨by decide +kernel, by norm_num, by decide +kernel, fun r hr => by simp [sampleArc, GCode.num?, GCode.param] at hr⟩
  obtain ⟨mc', q, v, h1, h2, h3, rfl⟩ := C54_machine atOne one_wf one_sys one_synced (by decide) one_abs sampleArc
    ⟨by decide +kernel, by decide +kernel⟩ _ (pos_ok atOne one_wf one_sys) none (some .inside) true (1 / 100) 3 vs h
  exact ⟨mc', q, h1, h2, vs, h, h3⟩

/-- The lines of the quarter turn form one path to (0, 1, 0), for every method. -/
example (m : ArcMethod) : ∃ a ls, sampleArc.arcOf ⟨1, 0, 0⟩ xy.normal Quat.one false true (1 / 100) = .ok a ∧
    a.iterVertices m = .ok ls ∧ ∃ vs, ls = segments ⟨1, 0, 0⟩ vs ∧ vs.getLast? = some ⟨0, 1, 0⟩ := by
  obtain ⟨a, ha⟩ := inst_arc
  have h1 := C56_center xy _ _ _ _ _ _ a ha inst_apart
  have F := arcOf_ok xy _ _ _ _ _ _ a ha
  have hang := angle_ne xy a (sweeps_xy _ _ _ _ _ a ha) (by rw [F.cStart, F.cEnd]; exact inst_apart)
  obtain ⟨ls, vs, n, W, h2, h3, h4, -⟩ := C55_chain xy _ _ _ _ _ _ a ha h1.1 (by norm_num) hang m
  rw [inst_end] at h4
  exact ⟨a, ls, ha, h2, vs, h3, h4⟩

/-- A quarter of a circle in the other planes is accepted. -/
theorem inst_arc_yz (q : Quat) : ∃ a, sampleArcYZ.arcOf ⟨0, 1, 0⟩ yz.normal q false true (1 / 10) = .ok a :=
  (C62_reach yz _ _ _ _ _ _).2 ⟨by decide +kernel, fun r hr => by simp [sampleArcYZ, GCode.num?, GCode.param] at hr⟩

example : ∃ q a, planeQuat yz.cls = some q ∧ sampleArcYZ.arcOf ⟨0, 1, 0⟩ yz.normal q false true (1 / 10) = .ok a ∧
    ∃ k : ℤ, a.angle = k * Real.pi := by
  obtain ⟨q, hq⟩ := planeQuat_cls yz
  obtain ⟨a, ha⟩ := inst_arc_yz q
  exact ⟨q, a, hq, ha, C58_yz_halves _ _ q hq _ _ _ a ha⟩

/-- `G2 X1 Z1 I1` -/
def sampleArcZX : GCode := ⟨.arcMoveCW, ⟨'G', .num 2⟩, [⟨'X', .num 1⟩, ⟨'Z', .num 1⟩, ⟨'I', .num 1⟩], false⟩

example : ∃ q a, planeQuat zx.cls = some q ∧ sampleArcZX.arcOf ⟨0, 0, 0⟩ zx.normal q false true (1 / 10) = .ok a ∧
    ∃ k : ℤ, a.angle = k * (Real.pi / 2) := by
  obtain ⟨q, hq⟩ := planeQuat_cls zx
  obtain ⟨a, ha⟩ := (C62_reach zx sampleArcZX ⟨0, 0, 0⟩ q false true (1 / 10)).2
    ⟨by decide +kernel, fun r hr => by simp [sampleArcZX, GCode.num?, GCode.param] at hr⟩
  exact ⟨q, a, hq, ha, C58_zx_quarters _ _ q hq _ _ _ a ha⟩

/-- In incremental mode: `G3 X-1 Y1 I-1` from (1, 0, 0), with three decimals. -/
def sampleArcRel : GCode := ⟨.arcMoveCCW, ⟨'G', .num 3⟩, [⟨'X', .num (-1)⟩, ⟨'Y', .num 1⟩, ⟨'I', .num (-1)⟩], false⟩

example (m : ArcMethod) : ∃ vs v, linearizeArc sampleArcRel (at3 1 0 0) (some .selectXYPlane) (some m) true true (1 / 100) 3 =
    (vs, .done) ∧ (summed ⟨1, 0, 0⟩ vs).getLast? = some v ∧ Near 3 v ⟨0, 1, 0⟩ := by
  have hs := at3_vector 1 0 0
  obtain ⟨vs, h⟩ := (C62_done sampleArcRel _ m true true (1 / 100) 3 _ hs (by
    intro h
    have := congrArg Complex.re h
    simp [Pl.coord, GCode.arcEnd, sampleArcRel, GCode.num?, GCode.param, Word.num, add_mk] at this)).2
    ⟨by decide +kernel, by norm_num, by decide +kernel, fun r hr => by simp [sampleArcRel, GCode.num?, GCode.param] at hr⟩
  obtain ⟨s, v, h1, h2, h3⟩ := C60_end _ _ _ _ _ _ _ _ h
  rw [hs] at h1
  obtain rfl := h1
  refine ⟨vs, v, h, by simpa using h2, ?_⟩
  convert h3 using 1
  apply V3.ext <;> simp [sampleArcRel, GCode.num?, GCode.param, Word.num, add_mk]

end Pygcode
