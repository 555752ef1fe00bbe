import Verif.Props.FloatMove
import Verif.Props.Canned
import Verif.Props.Copy
import Verif.Props.Expand
import Verif.Props.Abs2Rel
import Verif.Props.Modal
import Verif.Props.Order
import Verif.Props.Units

/-! # The hypotheses of the machine theorems hold for concrete machines and gcodes

Each example applies a theorem to the machine `sampleMachine` (offsets along X and Z) or to the same
machine after G91, with every hypothesis discharged. -/

namespace Pygcode.Props
open Pygcode Spec Machine

theorem sample_wf : sampleMachine.WF := by
  refine ⟨rfl, fun _ _ => rfl, ?_, rfl, ?_, fun _ h => h, fun _ h => h⟩
  · intro f h k
    simp only [sampleMachine, CSTable.dict.injEq] at h
    subst h
    exact ⟨rfl, fun a ha => if_neg ha⟩
  · exact fun a ha => if_neg ha

theorem sample_sys : ¬ sampleMachine.BadSys := by
  rintro ⟨h, -⟩; simp [sampleMachine] at h

theorem sample_synced : Synced sampleMachine := by
  intro g hg
  have : g = ⟨.selectCoordinateSystem1, ⟨'G', .num 54⟩, [], false⟩ := by
    have h : sampleMachine.mode.coordSystem =
      some ⟨.selectCoordinateSystem1, ⟨'G', .num 54⟩, [], false⟩ := by decide +kernel
    rw [h] at hg; exact (Option.some.inj hg).symm
  subst this
  decide +kernel

/-- The machine after G91. -/
def relMachine : Machine := { sampleMachine with
  mode := Function.update sampleMode 3 (some ⟨.incrementalDistanceMode, ⟨'G', .num 91⟩, [], false⟩) }

theorem rel_wf : relMachine.WF := by
  have h := sample_wf
  exact ⟨h.abs, h.absWF, h.sys, h.off, h.offWF, h.lo, h.hi⟩

theorem rel_sys : ¬ relMachine.BadSys := sample_sys

theorem rel_synced : Synced relMachine := by
  intro g hg
  apply sample_synced g
  rw [← hg]
  decide +kernel

theorem move_ok : GOK sampleMove := by
  constructor
  · decide +kernel
  · decide +kernel

theorem step_ok : ∀ g ∈ tenSteps, GOK g ∧ (g.cls.proc = .motion ∨ g.cls.proc = .rapid) := by
  intro g hg
  rw [List.eq_of_mem_replicate hg]
  refine ⟨⟨by decide +kernel, by decide +kernel⟩, .inl (by decide +kernel)⟩

example := C30_readback sampleMachine sample_wf _ rfl (by decide +kernel)
  (Position.make xyz .mm [(.X, 5)]) rfl (fun a ha => if_neg ha)
example := C30_inverse sampleMachine sample_wf sample_sys (Position.make xyz .mm [(.X, 5)]) rfl
example := C31_absolute sampleMachine sample_wf sample_sys sample_synced
  (by
    intro d hd
    have h : sampleMachine.mode.distance = some ⟨.absoluteDistanceMode, ⟨'G', .num 90⟩, [], false⟩ := by
      decide +kernel
    rw [h] at hd; cases hd; decide +kernel)
  sampleMove move_ok (.inl (by decide +kernel))
example := C32_sum tenSteps relMachine rel_wf rel_sys rel_synced _ rfl (by decide +kernel) step_ok
example := C32_order [sampleMove, ⟨.rapidMove, ⟨'G', .num 0⟩, [⟨'X', .num (-1)⟩], false⟩]
  [⟨.rapidMove, ⟨'G', .num 0⟩, [⟨'X', .num (-1)⟩], false⟩, sampleMove] (List.Perm.swap _ _ _)
  relMachine rel_wf rel_sys rel_synced _ rfl (by decide +kernel)
  (by
    intro g hg
    simp only [List.mem_cons, List.not_mem_nil, or_false] at hg
    rcases hg with rfl | rfl
    · exact ⟨move_ok, .inl (by decide +kernel)⟩
    · exact ⟨⟨by decide +kernel, by decide +kernel⟩, .inr (by decide +kernel)⟩)
example := C41_copy_partial sampleMachine sample_wf sample_sys
example := C72_printed tenSteps relMachine rel_wf rel_sys rel_synced _ rfl (by decide +kernel) step_ok
  .X (by decide) 100 (by norm_num) (by decide +kernel) (by decide +kernel)
  (by
    intro g hg
    rw [List.eq_of_mem_replicate hg]
    decide +kernel)
  (by
    intro l hl
    have hr : l = List.replicate l.length ⟨.linearMove, ⟨'G', .num 1⟩, [⟨'X', .num (1 / 10)⟩], false⟩ :=
      List.eq_replicate_of_mem (fun x hx => List.eq_of_mem_replicate (hl.subset hx))
    have hle : l.length ≤ 10 := hl.length_le
    rw [hr]
    simp only [List.map_replicate, List.sum_replicate]
    have h1 : relMachine.absPos.val .X = 0 := by decide +kernel
    have h2 : given ⟨.linearMove, ⟨'G', .num 1⟩, [⟨'X', .num (1 / 10)⟩], false⟩ .X = 1 / 10 := by
      decide +kernel
    rw [h1, h2, abs_le]
    have hle' : (l.length : ℚ) ≤ 10 := by exact_mod_cast hle
    have h0 : (0 : ℚ) ≤ l.length := by positivity
    simp only [nsmul_eq_mul]
    constructor <;> linarith)
  (by decide +kernel) (by decide)

theorem sample_abs : ∀ d, sampleMachine.mode.distance = some d →
    d.cls.isSub .incrementalDistanceMode = false := by
  intro d hd
  have h : sampleMachine.mode.distance = some ⟨.absoluteDistanceMode, ⟨'G', .num 90⟩, [], false⟩ := by
    decide +kernel
  rw [h] at hd; cases hd; decide +kernel

theorem sample_cycle_ok : GOK sampleCycle := ⟨by decide +kernel, by decide +kernel⟩

example := C45_absolute sampleMachine sample_wf sample_sys sample_synced sample_abs sampleCycle
  sample_cycle_ok (by decide +kernel) (by decide +kernel) (by decide +kernel)
  ⟨.selectXYPlane, ⟨'G', .num 17⟩, [], false⟩ (by decide +kernel) .Z (by decide +kernel) (by decide)
  (fun _ => by decide +kernel)
example := C45_incremental relMachine rel_wf rel_sys rel_synced _ rfl (by decide +kernel) sampleCycle
  sample_cycle_ok (by decide +kernel) (by decide +kernel)
  ⟨.selectXYPlane, ⟨'G', .num 17⟩, [], false⟩ (by decide +kernel) .Z (by decide +kernel) (by decide)
  (fun _ => by decide +kernel)
example := C49_same_end 9 sampleDrill ⟨by decide +kernel, by decide +kernel⟩
  ⟨by decide +kernel, by decide +kernel⟩ sampleMachine sample_wf sample_sys sample_synced (by decide)
  _ (pos_ok sampleMachine sample_wf sample_sys) ⟨.selectXYPlane, ⟨'G', .num 17⟩, [], false⟩
  (by decide +kernel) rfl false
  (by
    have h : sampleMachine.mode.cannedReturn = none := by decide +kernel
    constructor
    · intro h'; cases h'
    · rintro ⟨r, hr, -⟩; rw [h] at hr; cases hr)
  _ (Prod.ext rfl (by decide +kernel)) (by decide +kernel) (.inl rfl)
  (by
    intro a ha
    simp only [sampleMachine, newWith, xyz, Finset.mem_insert, Finset.mem_singleton] at ha
    rcases ha with rfl | rfl | rfl <;> simp)

theorem stream_ok : ∀ g ∈ sampleStream, GOK g ∧ Named g ∧ IsMove g := by
  intro g hg
  simp only [sampleStream, List.mem_cons, List.not_mem_nil, or_false] at hg
  rcases hg with rfl | rfl | rfl | rfl <;>
    exact ⟨⟨by decide +kernel, by decide +kernel⟩, by unfold Named; decide +kernel,
      by unfold IsMove; decide⟩

example := C48_trajectory sampleStream stream_ok .done
  ⟨xyz, .mm, fun a => if a ∈ xyz then (sampleMachine.absPos.val a - sampleMachine.sysOff a -
    sampleMachine.state.offset.val a) else 0⟩ (fun a ha => if_neg ha)
  sampleMachine relMachine sample_wf sample_sys sample_synced (by decide +kernel)
  rel_wf rel_sys rel_synced (by decide +kernel)
  _ (pos_ok _ sample_wf sample_sys) (by funext a; cases a <;> decide +kernel) rfl
  _ (pos_ok _ rel_wf rel_sys) (by funext a; cases a <;> decide +kernel) rfl

example := C39_refused sampleMachine rfl
  (by
    intro g hg
    have h : sampleMachine.mode.motion = some ⟨.rapidMove, ⟨'G', .num 0⟩, [], false⟩ := by decide +kernel
    rw [h] at hg; cases hg
    exact ⟨⟨by decide +kernel, by decide +kernel⟩, by unfold Named; decide +kernel⟩)
  [sampleMove] [⟨'P', .num 1⟩] (by decide +kernel)
example : sampleMachine.processGcodes [sampleMove] [⟨'P', .num 1⟩] = (sampleMachine, some .invalidState) := by
  refine (C39_refused sampleMachine rfl ?_ [sampleMove] [⟨'P', .num 1⟩] (by decide +kernel)).1
    ⟨by simp, .inr ⟨_, rfl, ⟨'P', .num 1⟩, by simp, by decide +kernel⟩⟩
  intro g hg
  have h : sampleMachine.mode.motion = some ⟨.rapidMove, ⟨'G', .num 0⟩, [], false⟩ := by decide +kernel
  rw [h] at hg; cases hg
  exact ⟨⟨by decide +kernel, by decide +kernel⟩, by unfold Named; decide +kernel⟩

end Pygcode.Props
