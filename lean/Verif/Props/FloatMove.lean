import Verif.Props.Float
import Verif.Props.MachineMove

/-! # C72: rounding errors of moves do not show -/

namespace Pygcode.Props
open Pygcode Spec

/-- Absolute error of rounding. -/
theorem nearest_err_le {a B : ℚ} (h0 : 0 ≤ a) (hB : a ≤ B) (h1 : 1 ≤ B) : |a - nearest a| ≤ B / 2 ^ 53 := by
  by_cases h : (2 : ℚ) ^ (-1022 : ℤ) ≤ a
  · refine (nearest_err h).trans ?_
    gcongr
  · push Not at h
    rcases h0.eq_or_lt with rfl | hpos
    · rw [nearest_zero]; simp; linarith
    refine (nearest_err_ulp a).trans ?_
    have hlog : Int.log 2 a < -1022 := by
      have := (log2_bounds hpos).1
      have hlt : (2 : ℚ) ^ Int.log 2 a < 2 ^ (-1022 : ℤ) := lt_of_le_of_lt this h
      rwa [zpow_lt_zpow_iff_right₀ (by norm_num)] at hlt
    have hu : ulp a = 2 ^ (-1074 : ℤ) := by
      unfold ulp; rw [max_eq_right hlog.le]; norm_num
    have h2 : (2 : ℚ) ^ (-1074 : ℤ) ≤ 2 ^ (-52 : ℤ) := zpow_le_zpow_right₀ (by norm_num) (by norm_num)
    have h3 : (1 : ℚ) / 2 ^ 53 ≤ B / 2 ^ 53 := by gcongr
    rw [hu]
    refine le_trans ?_ h3
    rw [show (1 : ℚ) / 2 ^ 53 = (2 : ℚ) ^ (-52 : ℤ) / 2 by norm_num]
    exact div_le_div_of_nonneg_right h2 (by norm_num)

theorem of_err {q B : ℚ} (hB : |q| ≤ B) (h1 : 1 ≤ B) : |(F64.of q).val - q| ≤ B / 2 ^ 53 := by
  have h := nearest_err_le (abs_nonneg q) hB h1
  unfold F64.of F64.val
  simp only [decide_eq_true_eq]
  rcases lt_or_ge q 0 with hq | hq
  · rw [if_pos hq]
    rw [abs_of_neg hq] at h ⊢
    rw [show -nearest (-q) - q = -q - nearest (-q) by ring]
    exact h
  · rw [if_neg hq.not_gt]
    rw [abs_of_nonneg hq] at h ⊢
    rw [abs_sub_comm]; exact h

theorem of_mag_nonneg (q : ℚ) : 0 ≤ (F64.of q).mag := nearest_nonneg (abs_nonneg q)

/-- One move: five roundings. -/
theorem moveBy_err {o t x d : F64} {X B : ℚ} (h1 : 1 ≤ B) (ho : |o.val| ≤ B) (ht : |t.val| ≤ B)
    (hd : |d.val| ≤ B) (hX : |X| ≤ B) (he : |x.val - X| ≤ B) :
    |(F64.moveBy o t x d).val - (X + d.val)| ≤ |x.val - X| + 40 * B / 2 ^ 53 := by
  have hu : 8 * B / 2 ^ 53 ≤ B / 100 := by
    rw [div_le_div_iff₀ (by norm_num) (by norm_num)]; norm_num; linarith
  have h8 : (1 : ℚ) ≤ 8 * B := by linarith
  obtain ⟨o1, o2⟩ := abs_le.1 ho
  obtain ⟨t1, t2⟩ := abs_le.1 ht
  obtain ⟨d1, d2⟩ := abs_le.1 hd
  obtain ⟨X1, X2⟩ := abs_le.1 hX
  obtain ⟨x1, x2⟩ := abs_le.1 he
  unfold F64.moveBy
  set a := x.sub o with ha
  have ea : |a.val - (x.val - o.val)| ≤ 8 * B / 2 ^ 53 :=
    of_err (abs_le.2 ⟨by linarith, by linarith⟩) h8
  obtain ⟨a1, a2⟩ := abs_le.1 ea
  set b := a.sub t with hb
  have eb : |b.val - (a.val - t.val)| ≤ 8 * B / 2 ^ 53 :=
    of_err (abs_le.2 ⟨by linarith, by linarith⟩) h8
  obtain ⟨b1, b2⟩ := abs_le.1 eb
  set c := b.add d with hc
  have ec : |c.val - (b.val + d.val)| ≤ 8 * B / 2 ^ 53 :=
    of_err (abs_le.2 ⟨by linarith, by linarith⟩) h8
  obtain ⟨c1, c2⟩ := abs_le.1 ec
  set f := c.add t with hf
  have ef : |f.val - (c.val + t.val)| ≤ 8 * B / 2 ^ 53 :=
    of_err (abs_le.2 ⟨by linarith, by linarith⟩) h8
  obtain ⟨f1, f2⟩ := abs_le.1 ef
  have eg : |(f.add o).val - (f.val + o.val)| ≤ 8 * B / 2 ^ 53 :=
    of_err (abs_le.2 ⟨by linarith, by linarith⟩) h8
  obtain ⟨g1, g2⟩ := abs_le.1 eg
  have e40 : 40 * B / 2 ^ 53 = 5 * (8 * B / 2 ^ 53) := by ring
  rw [e40]
  have l1 := le_abs_self (x.val - X)
  have l2 := neg_abs_le (x.val - X)
  rw [abs_le]
  constructor <;> linarith

/-- **C72** (drift): after any number of incremental moves the coordinate computed with `float`s differs
from the exact one by at most `40 * B / 2^53` per move, when the exact coordinates, the offsets and the
distances stay within `B` and the total stays below `B`. -/
theorem C72_drift (ds : List F64) (o t x : F64) (X B : ℚ) (h1 : 1 ≤ B) (ho : |o.val| ≤ B)
    (ht : |t.val| ≤ B) (hd : ∀ d ∈ ds, |d.val| ≤ B)
    (hX : ∀ l, l <+: ds → |X + (l.map F64.val).sum| ≤ B)
    (hn : |x.val - X| + ds.length * (40 * B / 2 ^ 53) ≤ B) :
    |(ds.foldl (F64.moveBy o t) x).val - (X + (ds.map F64.val).sum)| ≤
      |x.val - X| + ds.length * (40 * B / 2 ^ 53) := by
  induction ds generalizing x X with
  | nil => simp
  | cons d ds ih =>
    have hp : 0 ≤ 40 * B / 2 ^ 53 := by positivity
    have hlen : (((d :: ds).length : ℕ) : ℚ) = ds.length + 1 := by simp
    rw [hlen] at hn ⊢
    have hl : (0 : ℚ) ≤ ds.length * (40 * B / 2 ^ 53) := by positivity
    have hX0 : |X| ≤ B := by simpa using hX [] (List.nil_prefix)
    have hs := moveBy_err (o := o) (t := t) h1 ho ht (hd d (by simp)) hX0 (x := x) (by linarith)
    have h' := ih (F64.moveBy o t x d) (X + d.val) (fun e he => hd e (by simp [he]))
      (by
        intro l hl
        have := hX (d :: l) (by simpa using hl)
        simpa [add_assoc] using this)
      (by linarith)
    simp only [List.foldl_cons, List.map_cons, List.sum_cons]
    rw [← add_assoc]
    linarith

/-- **C72** (machine): the absolute coordinate a machine reaches by incremental moves, computed with
`float`s, is off by at most `82 * (n + 1) * B / 2^53`, when everything stays within `B`. -/
theorem C72_machine (gs : List GCode) (m : Machine) (hm : m.WF) (hb : ¬ m.BadSys) (hs : Synced m)
    (d : GCode) (hd : m.mode.distance = some d) (hinc : d.cls.isSub .incrementalDistanceMode = true)
    (hg : ∀ g ∈ gs, GOK g ∧ (g.cls.proc = .motion ∨ g.cls.proc = .rapid))
    (a : Axis) (ha : a ∈ m.axes) (B : ℚ) (h1 : 1 ≤ B) (ho : |m.sysOff a| ≤ B)
    (ht : |m.state.offset.val a| ≤ B) (hgiv : ∀ g ∈ gs, |given g a| ≤ B)
    (hpos : ∀ l, l <+: gs → |m.absPos.val a + (l.map (fun g => given g a)).sum| ≤ B)
    (hn : gs.length + 1 ≤ (10 : ℚ) ^ 13) :
    ∃ m', m.processAll gs = (m', none) ∧
      |((gs.map (fun g => F64.of (given g a))).foldl
          (F64.moveBy (F64.of (m.sysOff a)) (F64.of (m.state.offset.val a)))
          (F64.of (m.absPos.val a))).val - m'.absPos.val a| ≤ 82 * (gs.length + 1) * B / 2 ^ 53 := by
  obtain ⟨m', e1, -, -, -, -, -, e7⟩ := processAll_incremental gs m hm hb hs d hd hinc hg
  refine ⟨m', e1, ?_⟩
  rw [e7 a ha]
  set u : ℚ := B / 2 ^ 53 with hu
  have hu0 : 0 < u := by positivity
  have huB : u * 10 ^ 15 ≤ B := by
    rw [hu, div_mul_eq_mul_div, div_le_iff₀ (by norm_num)]; norm_num; linarith
  have hlen0 : (0 : ℚ) ≤ gs.length := by positivity
  -- sums of rounded distances
  have hsum : ∀ l : List GCode, (∀ g ∈ l, |given g a| ≤ B) →
      |(l.map (fun g => (F64.of (given g a)).val)).sum - (l.map (fun g => given g a)).sum| ≤
        l.length * u := by
    intro l hl
    induction l with
    | nil => simp
    | cons g l ih =>
      have k1 := of_err (hl g (by simp)) h1
      have k2 := ih (fun x hx => hl x (by simp [hx]))
      simp only [List.map_cons, List.sum_cons, List.length_cons]
      push_cast
      rw [abs_le] at k1 k2 ⊢
      rw [← hu] at k1
      constructor <;> linarith [k1.1, k1.2, k2.1, k2.2]
  have hof : ∀ q : ℚ, |q| ≤ B → |(F64.of q).val| ≤ 2 * B := by
    intro q hq
    have k := of_err hq h1
    rw [← hu] at k
    rw [abs_le] at k hq ⊢
    constructor <;> nlinarith [k.1, k.2, hq.1, hq.2]
  have hX0 : |m.absPos.val a| ≤ B := by simpa using hpos [] List.nil_prefix
  have hx := of_err hX0 h1
  rw [← hu] at hx
  have h40 : 40 * (2 * B) / 2 ^ 53 = 80 * u := by rw [hu]; ring
  have hnu : (gs.length + 1) * u ≤ B / 100 := by nlinarith
  have key := C72_drift (gs.map (fun g => F64.of (given g a))) (F64.of (m.sysOff a))
    (F64.of (m.state.offset.val a)) (F64.of (m.absPos.val a)) (m.absPos.val a) (2 * B) (by linarith)
    (hof _ ho) (hof _ ht)
    (by
      intro f hf
      obtain ⟨g, hg', rfl⟩ := List.mem_map.1 hf
      exact hof _ (hgiv g hg'))
    (by
      intro l hl
      obtain ⟨k, hk, rfl⟩ : ∃ k, k <+: gs ∧ k.map (fun g => F64.of (given g a)) = l := by
        obtain ⟨r, hr⟩ := hl
        obtain ⟨l₁, l₂, h, rfl, rfl⟩ := List.map_eq_append_iff.1 hr.symm
        exact ⟨l₁, ⟨l₂, h.symm⟩, rfl⟩
      have hkl : (k.length : ℚ) ≤ gs.length := by exact_mod_cast hk.length_le
      have s1 := hsum k (fun g hg' => hgiv g (hk.subset hg'))
      have s2 := hpos k hk
      rw [List.map_map]
      have s1' : |(k.map (F64.val ∘ fun g => F64.of (given g a))).sum -
          (k.map (fun g => given g a)).sum| ≤ k.length * u := s1
      rw [abs_le] at s1' s2 ⊢
      have : (k.length : ℚ) * u ≤ B := by nlinarith
      constructor <;> linarith [s1'.1, s1'.2, s2.1, s2.2])
    (by
      rw [h40, List.length_map]
      nlinarith)
  rw [h40, List.length_map, List.map_map] at key
  have s1 := hsum gs hgiv
  have s1' : |(gs.map (F64.val ∘ fun g => F64.of (given g a))).sum -
      (gs.map (fun g => given g a)).sum| ≤ gs.length * u := s1
  have e82 : 82 * (gs.length + 1) * B / 2 ^ 53 = 82 * ((gs.length + 1) * u) := by rw [hu]; ring
  rw [e82]
  have key' := key.trans (add_le_add_left hx _)
  rw [abs_le] at key' s1' ⊢
  constructor <;> nlinarith [key'.1, key'.2, s1'.1, s1'.2]

/-- **C72** (printed): when the exact end coordinate has at most three decimals and six digits, and the
number of moves times the bound is at most 5·10^10 (fifty million moves within one metre in mm), the
coordinate computed with `float`s prints exactly as the exact one; a zero can print as `-0`. -/
theorem C72_printed (gs : List GCode) (m : Machine) (hm : m.WF) (hb : ¬ m.BadSys) (hs : Synced m)
    (d : GCode) (hd : m.mode.distance = some d) (hinc : d.cls.isSub .incrementalDistanceMode = true)
    (hg : ∀ g ∈ gs, GOK g ∧ (g.cls.proc = .motion ∨ g.cls.proc = .rapid))
    (a : Axis) (ha : a ∈ m.axes) (B : ℚ) (h1 : 1 ≤ B) (ho : |m.sysOff a| ≤ B)
    (ht : |m.state.offset.val a| ≤ B) (hgiv : ∀ g ∈ gs, |given g a| ≤ B)
    (hpos : ∀ l, l <+: gs → |m.absPos.val a + (l.map (fun g => given g a)).sum| ≤ B)
    (hn : (gs.length + 1) * B ≤ 5 * 10 ^ 10) (hne : gs ≠ []) :
    ∃ m', m.processAll gs = (m', none) ∧ ∀ (k : ℤ) (e : ℕ), e ≤ 3 → |k| < 10 ^ 6 →
      m'.absPos.val a = k / 10 ^ e →
      let x := (gs.map (fun g => F64.of (given g a))).foldl
          (F64.moveBy (F64.of (m.sysOff a)) (F64.of (m.state.offset.val a))) (F64.of (m.absPos.val a))
      x.cleanFloat = cleanFloat (m'.absPos.val a) ∨
        (m'.absPos.val a = 0 ∧ x.cleanFloat = "-0".toList) := by
  have hlen0 : (0 : ℚ) ≤ gs.length := by positivity
  obtain ⟨m', e1, e2⟩ := C72_machine gs m hm hb hs d hd hinc hg a ha B h1 ho ht hgiv hpos
    (by norm_num; nlinarith)
  refine ⟨m', e1, ?_⟩
  intro k e he hk hv x
  rw [hv] at e2 ⊢
  have hx : 0 ≤ x.mag := by
    obtain ⟨g, gs', rfl⟩ : ∃ g gs', gs = gs' ++ [g] := by
      obtain ⟨l, b, h⟩ := (List.eq_nil_or_concat gs).resolve_left hne
      exact ⟨b, l, by simpa using h⟩
    simp only [x, List.map_append, List.map_cons, List.map_nil, List.foldl_append, List.foldl_cons,
      List.foldl_nil]
    exact of_mag_nonneg _
  rcases C71_absorbed x hx k e he hk (by
    refine lt_of_le_of_lt e2 ?_
    have : 82 * (gs.length + 1) * B = 82 * ((gs.length + 1) * B) := by ring
    rw [this, div_lt_iff₀ (by norm_num)]
    norm_num at hn ⊢
    linarith) with h | ⟨rfl, h⟩
  · exact .inl h
  · exact .inr ⟨by simp, h⟩

/-- **C72** (axes without a word): without offsets, an axis a move does not mention keeps exactly its
`float` value. -/
theorem C72_still (o t x : F64) (ho : o.val = 0) (ht : t.val = 0) (hx : IsDouble x.mag)
    (h0 : 0 ≤ x.mag) :
    (F64.moveTo o t x none).val = x.val ∧ ∀ d : F64, d.val = 0 → (F64.moveBy o t x d).val = x.val := by
  have hne : nearest x.mag = x.mag := by
    have h := nearest_closest h0 hx
    rw [sub_self, abs_zero] at h
    have := abs_eq_zero.1 (le_antisymm h (abs_nonneg _))
    linarith
  have habs : |x.val| = x.mag := by
    unfold F64.val; split <;> simp [abs_of_nonneg h0]
  have hof : (F64.of x.val).val = x.val := by
    unfold F64.of
    rw [habs, hne]
    unfold F64.val
    cases hn : x.neg
    · simp [h0.not_gt]
    · simp only [if_true, Left.neg_neg_iff, decide_eq_true_eq]
      rcases h0.eq_or_lt with h | h
      · rw [← h]; simp
      · rw [if_pos h]
  constructor
  · simp only [F64.moveTo, F64.sub, F64.add, Option.getD_none, ho, ht, sub_zero, hof, add_zero]
  · intro d hd
    simp only [F64.moveBy, F64.sub, F64.add, ho, ht, hd, sub_zero, hof, add_zero]

/-! ### Cases -/

/-- Ten steps of 0.1 end at 1 in exact arithmetic. -/
def tenSteps : List GCode := List.replicate 10 ⟨.linearMove, ⟨'G', .num 1⟩, [⟨'X', .num (1 / 10)⟩], false⟩

def stepMachine : Machine := (sampleMachine.process ⟨.incrementalDistanceMode, ⟨'G', .num 91⟩, [], false⟩).1

-- with floats the sum is not 1, but it prints as 1
example : ((tenSteps.map (fun g => F64.of (given g .X))).foldl (F64.moveBy (F64.of 0) (F64.of 0))
    (F64.of 0)).val ≠ 1 := by decide +kernel
example : ((tenSteps.map (fun g => F64.of (given g .X))).foldl (F64.moveBy (F64.of 0) (F64.of 0))
    (F64.of 0)).cleanFloat = "1".toList := by decide +kernel
example : (stepMachine.processAll tenSteps).1.absPos.val .X = stepMachine.absPos.val .X + 1 := by
  decide +kernel
-- with offsets an axis that is not mentioned can change
example : (F64.moveTo (F64.of (1 / 5)) (F64.of (1 / 5)) (F64.of (1 / 10)) none).val ≠
    (F64.of (1 / 10)).val := by decide +kernel

end Pygcode.Props
