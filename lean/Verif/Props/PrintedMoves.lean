import Verif.Props.NormArc

/-!
# Moves printed one per line, read line by line
-/

namespace Pygcode
open Props Machine Spec

theorem rel_cls {a b : Option GCode} (h : Option.Rel SameGCode a b) : a.map GCode.cls = b.map GCode.cls := by
  cases h with
  | none => rfl
  | some s => exact congrArg some s.1

/-- After moves, the motion mode is that of the last one. -/
theorem last_motion {gs : List GCode} {g : GCode} (hg : ∀ x ∈ gs ++ [g], GOK x) (hn : ∀ x ∈ gs ++ [g], Named x) (hmv : IsMove g)
    {m : Machine} (hm : Sound m) (h : (m.processAll gs).2 = none) :
    (m.processAll (gs ++ [g])).1.mode.motion.map GCode.cls = some g.cls := by
  have hs := Sound.all (fun x hx => hg x (by simp [hx])) (fun x hx => hn x (by simp [hx])) hm (gs := gs)
  have e : m.processAll (gs ++ [g]) = (m.processAll gs).1.process g := by
    rw [processAll_append]
    rcases hz : m.processAll gs with ⟨m₁, _ | e⟩
    · show m₁.processAll [g] = _
      rw [processAll_one]
    · rw [hz] at h; cases h
  rw [e]
  have hsl := process_slot _ hs.wf g (hg g (by simp))
  obtain ⟨-, k2, k3⟩ := isMove_params hmv
  rw [if_neg k3, if_pos k2] at hsl
  show Option.map GCode.cls (((m.processAll gs).1.process g).1.mode 1) = _
  rw [hsl]
  rfl

/-- The first `n` lines printed for plain moves do what the first `n` moves do, and set the motion mode of the last of them. -/
theorem moves_read_motion (o : NormOpts) (hr : o.rmGcodes = []) {b : Machine} (hb : Sound b) (out : List GCode)
    (hp : ∀ g ∈ out, PlainCode g) (hgr : ∀ g ∈ out, g.cls.group = some 1) (n : ℕ) :
    ∃ b', readLines b (((o.omitGen (out, .done)).1.take n).flatMap (fun g => o.writeOne [g] [] none none)) = (b', none) ∧
      NearTo (b.processAll (out.take n)).1 b' ∧
      (b.processAll (out.take n)).1.mode.motion.map GCode.cls = b'.mode.motion.map GCode.cls := by
  have hp' : ∀ g ∈ out.take n, PlainCode g := fun g hg => hp g (List.mem_of_mem_take hg)
  have hgr' : ∀ g ∈ out.take n, g.cls.group = some 1 := fun g hg => hgr g (List.mem_of_mem_take hg)
  obtain ⟨k1, k2⟩ := processAll_close (forall₂_canon (out.take n)) (fun g hg => (hp' g hg).gok)
    (⟨.refl b, rel_refl _⟩ : Close b b) hb.wf hb.wf
  rw [stays_all hp' hb] at k2
  have hread : readLines b ((out.take n).map GCode.str) = b.processAll ((out.take n).map canon) :=
    read_lines_plain b _ hp'
  unfold NormOpts.omitGen
  by_cases hf : o.full = true
  · rw [if_pos hf]
    simp only
    rw [written_lines o hr (List.forall₂_same.2 (fun g _ => ⟨rfl, rfl, rfl, fun hw => by
      rename_i hg'; rw [(hp' g hg').noWs] at hw; cases hw⟩)) hp' hgr' b, hread]
    exact ⟨_, Prod.ext rfl k2.symm, k1.near, rel_cls k1.motion⟩
  · rw [if_neg hf]
    obtain ⟨out', e1, e2, e3⟩ := C47_same out hp
    have e1' : omitFrom newNull out = (out', .done) := e1
    rw [e1']
    have e4 : (Gen.andThen (out', .done) ([], .done)).1 = out' := by simp [Gen.andThen]
    rw [e4, written_lines o hr (List.forall₂_take n e2) hp' hgr' b]
    obtain ⟨a', c', f1, f2, f3⟩ := e3 (tight b) (tight_reader hb) n
    have g1 := lines_close ((out.take n).map GCode.str) (tight_close b) (tight_reader hb).sound hb
    have g2 := lines_close ((out'.take n).map GCode.str) (tight_close b) (tight_reader hb).sound hb
    rw [f1, hread] at g1
    rw [f2] at g2
    refine ⟨_, Prod.ext rfl g2.2.symm, (k1.near.trans g1.1.near.symm).trans (f3.near.trans g2.1.near), ?_⟩
    have h1 := rel_cls k1.motion
    have h2 := rel_cls g1.1.motion
    have h3 := rel_cls g2.1.motion
    have h4 : a'.mode 1 = c'.mode 1 := congrFun f3.mode 1
    exact h1.trans (h2.symm.trans ((congrArg (Option.map GCode.cls) h4).trans h3))

/-- Each line printed for a gcode is one line at most. -/
theorem one_line (o : NormOpts) (gs : List GCode) (n : ℕ) :
    ((gs.take (n + 1)).flatMap (fun g => o.writeOne [g] [] none none)).length ≤
      ((gs.take n).flatMap (fun g => o.writeOne [g] [] none none)).length + 1 := by
  have h1 : ∀ g, (o.writeOne [g] [] none none).length ≤ 1 := by
    intro g; unfold NormOpts.writeOne; split_ifs <;> simp
  by_cases hn : n < gs.length
  · rw [List.take_succ_eq_append_getElem hn, List.flatMap_append, List.length_append, List.flatMap_singleton]
    have := h1 gs[n]
    omega
  · rw [List.take_of_length_le (by omega), List.take_of_length_le (by omega)]
    omega

theorem flat_prefix (o : NormOpts) (gs : List GCode) (n : ℕ) :
    (gs.take n).flatMap (fun g => o.writeOne [g] [] none none) <+: (gs.take (n + 1)).flatMap (fun g => o.writeOne [g] [] none none) := by
  rw [List.take_add, List.flatMap_append]
  exact List.prefix_append _ _

end Pygcode
