import Verif.Props.Instances3

/-!
# pygcode-crop for any range (C63)

The selected lines for conditions on line numbers and positions, and for ranges with an open end.
-/

namespace Pygcode
open Props Machine Spec

/-! ## Specification -/

/-- The condition is true of the line: of its number, or of the position after it. -/
def Met (c : Cond) (s : CropStep) : Prop :=
  (c.param = 'N' → c.op.Means s.n c.value) ∧ ∀ a : Axis, c.param = a.letter → c.op.Means (s.pos.val a) c.value

/-- The first line to be printed is one like this: any line, if no conditions are given. -/
def Begins (r : CropRange) (s : CropStep) : Prop := ∀ cs, r.first = some cs → ∀ c ∈ cs, Met c s

/-- The first line not to be printed is one like this: none, if no conditions are given. -/
def Stops (r : CropRange) (s : CropStep) : Prop := ∃ cs, r.last = some cs ∧ ∀ c ∈ cs, Met c s

/-- The conditions are on the line number and on X, Y, Z. -/
def CropRange.Usual (r : CropRange) : Prop :=
  ∀ cs, r.first = some cs ∨ r.last = some cs → ∀ c ∈ cs, c.param ∈ ['N', 'X', 'Y', 'Z']

/-! ## Any range -/

theorem met_iff (c : Cond) (s : CropStep) (hc : c.param ∈ ['N', 'X', 'Y', 'Z']) (hp : s.pos.axes = xyz) :
    ∃ b, c.holds s.n s.pos = .ok b ∧ (b = true ↔ Met c s) := by
  obtain ⟨h1, h2⟩ := C63_holds c s.n s.pos
  have key : ∀ a : Axis, c.param = a.letter → a ∈ xyz → ∃ b, c.holds s.n s.pos = .ok b ∧ (b = true ↔ Met c s) := by
    intro a ha hax
    obtain ⟨b, hb, hm⟩ := (h2 a ha).1 (hp ▸ hax)
    refine ⟨b, hb, hm.trans ⟨fun h => ⟨fun hn => ?_, fun a' ha' => ?_⟩, fun h => h.2 a ha⟩⟩
    · rw [ha] at hn; cases a <;> exact absurd hn (by decide)
    · have : a = a' := by
        have := congrArg Axis.ofLetter (ha.symm.trans ha')
        have e : ∀ a : Axis, Axis.ofLetter a.letter = some a := by intro a; cases a <;> rfl
        rw [e, e] at this
        exact Option.some.inj this
      exact this ▸ h
  simp only [List.mem_cons, List.not_mem_nil, or_false] at hc
  rcases hc with h | h | h | h
  · obtain ⟨b, hb, hm⟩ := h1 h
    refine ⟨b, hb, hm.trans ⟨fun hh => ⟨fun _ => hh, fun a ha => ?_⟩, fun hh => hh.1 h⟩⟩
    rw [h] at ha; cases a <;> exact absurd ha (by decide)
  · exact key .X h (by decide)
  · exact key .Y h (by decide)
  · exact key .Z h (by decide)

theorem group_met (cs : List Cond) (s : CropStep) (hc : ∀ c ∈ cs, c.param ∈ ['N', 'X', 'Y', 'Z']) (hp : s.pos.axes = xyz) :
    ∃ b, allHold s.n s.pos cs = .ok b ∧ (b = true ↔ ∀ c ∈ cs, Met c s) := by
  induction cs with
  | nil => exact ⟨true, rfl, by simp⟩
  | cons c cs ih =>
    obtain ⟨b, hb, hm⟩ := met_iff c s (hc c List.mem_cons_self) hp
    obtain ⟨d, hd, hn⟩ := ih (fun c h => hc c (List.mem_cons_of_mem _ h))
    unfold allHold
    rw [hb]
    cases b with
    | false => exact ⟨false, rfl, iff_of_false (by simp) (fun h => by simpa using hm.2 (h c List.mem_cons_self))⟩
    | true =>
      refine ⟨d, hd, hn.trans ?_⟩
      rw [List.forall_mem_cons]
      exact ⟨fun h => ⟨hm.1 rfl, h⟩, fun h => h.2⟩

/-- The position after every line has the axes X, Y, Z. -/
theorem trace_pos {i : ℕ} {m : Machine} {ts : List (List Char)} {ss : List CropStep} (h : CropTrace i m ts ss)
    (hm : m.WF) (hax : m.axes = xyz) : ∀ s ∈ ss, s.pos.axes = xyz := by
  induction h with
  | nil => simp
  | @cons i m t ts l m' p ss h1 h2 h3 h4 ih =>
    have hstr : m.processStr t = (m', none) := by unfold processStr; rw [h1]; exact h2
    have hp := path_calls [.str t] m hm (by simp [Call.OK])
    have hm' : Call.runAll m [.str t] = m' := by simp [Call.runAll, Call.run, hstr]
    rw [hm'] at hp
    have hw := hp.wf hm
    intro s hs
    rcases List.mem_cons.1 hs with rfl | hs
    · have hb : ¬ m'.BadSys := fun hb => by rw [pos_bad m' hb] at h3; cases h3
      rw [pos_ok m' hw hb] at h3
      cases h3
      exact hp.frame.axes.trans hax
    · exact ih hw (hp.frame.axes.trans hax) s hs

/-- **C63** (any range): the script prints the lines from the first one where the conditions in front of the
colon hold, up to the line before the first one from there where those after the colon hold. -/
theorem C63_crop (r : CropRange) (hr : r.Usual) {ts : List (List Char)} {ss : List CropStep} (h : CropTrace 0 newNull ts ss)
    (hp : ∀ s ∈ ss, normalOf s.before.mode ≠ none) :
    (crop r ts = ([], none) ∧ ∀ s ∈ ss, ¬ Begins r s) ∨
    (∃ xs s ys zs, ss = xs ++ s :: ys ++ zs ∧ crop r ts = ((cropPreamble s.before.copy).1 ++ (s :: ys).map (fun s => s.line.str), none) ∧
      (∀ x ∈ xs, ¬ Begins r x) ∧ Begins r s ∧ (∀ y ∈ s :: ys, ¬ Stops r y) ∧ (∀ z ∈ zs.head?, Stops r z)) ∨
    ∃ xs s zs, ss = xs ++ s :: zs ∧ crop r ts = ((cropPreamble s.before.copy).1, none) ∧
      (∀ x ∈ xs, ¬ Begins r x) ∧ Begins r s ∧ Stops r s := by
  have hw := trace_wf h (newWith_wf _ _)
  have hx := trace_pos h (newWith_wf _ _) rfl
  have hF : ∀ s ∈ ss, ∃ b, r.isFirst s.n s.pos = .ok b ∧ (b = true ↔ Begins r s) := by
    intro s hs
    unfold CropRange.isFirst Begins
    cases hf : r.first with
    | none => exact ⟨true, rfl, by simp⟩
    | some cs =>
      obtain ⟨b, hb, hm⟩ := group_met cs s (hr cs (.inl hf)) (hx s hs)
      exact ⟨b, hb, by simpa using hm⟩
  have hL : ∀ s ∈ ss, ∃ b, r.isLast s.n s.pos = .ok b ∧ (b = true ↔ Stops r s) := by
    intro s hs
    unfold CropRange.isLast Stops
    cases hf : r.last with
    | none => exact ⟨false, rfl, by simp⟩
    | some cs =>
      obtain ⟨b, hb, hm⟩ := group_met cs s (hr cs (.inr hf)) (hx s hs)
      exact ⟨b, hb, by simpa using hm⟩
  classical
  have hsel := C63_selected r.isFirst r.isLast (fun s => decide (Begins r s)) (fun s => decide (Stops r s)) h
    (fun s hs => by
      obtain ⟨b, hb, hm⟩ := hF s hs
      rw [hb]
      congr 1
      cases b <;> simp_all)
    (fun s hs => by
      obtain ⟨b, hb, hm⟩ := hL s hs
      rw [hb]
      congr 1
      cases b <;> simp_all)
    (fun s hs => by
      obtain ⟨n, hn⟩ := Option.ne_none_iff_exists'.1 (hp s hs)
      rw [preamble_eq s.before (hw s hs).1 (hw s hs).2 n hn])
  unfold crop
  rw [hsel]
  unfold selected
  clear hsel hF hL hx hw hp
  cases hfd : ss.find? (fun s => decide (Begins r s)) with
  | none =>
    left
    exact ⟨rfl, fun s hs => by simpa using List.find?_eq_none.1 hfd s hs⟩
  | some s =>
    obtain ⟨hs, xs, ys, rfl, hxs⟩ := List.find?_eq_some_iff_append.1 hfd
    right
    have hs' : Begins r s := by simpa using hs
    have hxs' : ∀ x ∈ xs, ¬ Begins r x := fun x hx => by simpa using hxs x hx
    have hd : (xs ++ s :: ys).dropWhile (fun s => !decide (Begins r s)) = s :: ys := by
      rw [List.dropWhile_append_of_pos (by simpa using hxs'), List.dropWhile_cons_of_neg (by simpa using hs')]
    simp only [hd]
    by_cases hst : Stops r s
    · right
      exact ⟨xs, s, ys, rfl, by rw [List.takeWhile_cons_of_neg (by simpa using hst)]; simp, hxs', hs', hst⟩
    · left
      rw [List.takeWhile_cons_of_pos (by simpa using hst)]
      refine ⟨xs, s, ys.takeWhile (fun s => !decide (Stops r s)), ys.dropWhile (fun s => !decide (Stops r s)), ?_, rfl, hxs', hs', ?_, ?_⟩
      · rw [List.append_assoc, List.cons_append, List.takeWhile_append_dropWhile]
      · intro y hy
        rcases List.mem_cons.1 hy with rfl | hy
        · exact hst
        · simpa using List.mem_takeWhile_imp hy
      · intro z hz
        have := List.head?_dropWhile_not (fun s => !decide (Stops r s)) ys
        have hz' : (ys.dropWhile (fun s => !decide (Stops r s))).head? = some z := hz
        rw [hz'] at this
        simpa using this

/-! ## Open ends -/

theorem range_open (a b : ℕ) :
    rangeType [':'] = some ⟨none, none⟩ ∧
    rangeType (':' :: Nat.toDigits 10 b) = some ⟨none, some [⟨'N', .eq, b⟩]⟩ ∧
    rangeType (Nat.toDigits 10 a ++ [':']) = some ⟨some [⟨'N', .eq, a⟩], none⟩ := by
  have hg : ∀ a : ℕ, GroupText (Nat.toDigits 10 a) (some [⟨'N', .eq, a⟩]) := fun a =>
    .inr ⟨toDigits_ne_nil a, [Nat.toDigits 10 a], _, rfl, by simp, by simpa using not_mem_toDigits a ',' (by decide), rfl,
      .cons (number_cond a) .nil⟩
  have h0 : GroupText [] none := .inl ⟨rfl, rfl⟩
  refine ⟨(C63_range _ _).2 ⟨[], [], rfl, by simp, by simp, h0, h0⟩,
    (C63_range _ _).2 ⟨[], _, rfl, by simp, not_mem_toDigits b _ (by decide), h0, hg b⟩,
    (C63_range _ _).2 ⟨_, [], rfl, not_mem_toDigits a _ (by decide), by simp, hg a, h0⟩⟩

theorem crop_numbers (fa lb : Option ℕ) {ts : List (List Char)} {ss : List CropStep} (h : CropTrace 0 newNull ts ss)
    (hp : ∀ s ∈ ss, normalOf s.before.mode ≠ none)
    (hab : ∀ b ∈ lb, fa.getD 1 < b) (ha : 1 ≤ fa.getD 1) (hal : fa.getD 1 ≤ ts.length) :
    ∃ s, ss[fa.getD 1 - 1]? = some s ∧
      crop ⟨fa.map (fun a : ℕ => [⟨'N', .eq, (a : ℚ)⟩]), lb.map (fun b : ℕ => [⟨'N', .eq, (b : ℚ)⟩])⟩ ts =
        ((cropPreamble s.before.copy).1 ++
          ((match lb with | none => ss | some b => ss.take (b - 1)).drop (fa.getD 1 - 1)).map (fun s : CropStep => s.line.str), none) := by
  obtain ⟨hlen, hn⟩ := trace_numbers h
  have hbeg : ∀ s : CropStep, Begins ⟨fa.map (fun a : ℕ => [⟨'N', .eq, (a : ℚ)⟩]), lb.map (fun b : ℕ => [⟨'N', .eq, (b : ℚ)⟩])⟩ s ↔
      ∀ a ∈ fa, s.n = a := by
    intro s
    unfold Begins Met
    cases fa with
    | none => simp
    | some a =>
      have : ∀ x : Axis, 'N' ≠ x.letter := by intro x; cases x <;> decide
      simp [CmpOp.Means, this]
  have hstp : ∀ s : CropStep, Stops ⟨fa.map (fun a : ℕ => [⟨'N', .eq, (a : ℚ)⟩]), lb.map (fun b : ℕ => [⟨'N', .eq, (b : ℚ)⟩])⟩ s ↔
      ∃ b ∈ lb, s.n = b := by
    intro s
    unfold Stops Met
    cases lb with
    | none => simp
    | some b =>
      have : ∀ x : Axis, 'N' ≠ x.letter := by intro x; cases x <;> decide
      simp [CmpOp.Means, this, eq_comm]
  have hus : CropRange.Usual ⟨fa.map (fun a : ℕ => [⟨'N', .eq, (a : ℚ)⟩]), lb.map (fun b : ℕ => [⟨'N', .eq, (b : ℚ)⟩])⟩ := by
    rintro cs (hc | hc) c hcc
    · obtain ⟨a, -, rfl⟩ := Option.map_eq_some_iff.1 hc
      rw [List.mem_singleton.1 hcc]; simp
    · obtain ⟨a, -, rfl⟩ := Option.map_eq_some_iff.1 hc
      rw [List.mem_singleton.1 hcc]; simp
  -- position of the first printed line
  have hpos : ∀ (xs : List CropStep) (s : CropStep) (zs : List CropStep), ss = xs ++ s :: zs →
      (∀ x ∈ xs, ¬ ∀ a ∈ fa, x.n = a) → (∀ a ∈ fa, s.n = a) → xs.length = fa.getD 1 - 1 := by
    intro xs s zs he hxs hs
    have hs' : s.n = 1 + xs.length := by
      have := hn xs.length (by rw [he]; simp)
      simp only [he, List.getElem_append_right (le_refl _), Nat.sub_self, List.getElem_cons_zero] at this
      omega
    cases fa with
    | none =>
      cases xs with
      | nil => rfl
      | cons x xs => exact absurd (fun a ha => by cases ha) (hxs x List.mem_cons_self)
    | some a =>
      have := hs a rfl
      simp only [Option.getD_some]
      omega
  rcases C63_crop _ hus h hp with ⟨-, hnone⟩ | ⟨xs, s, ys, zs, he, hc, hxs, hs, hys, hzs⟩ | ⟨xs, s, zs, he, hc, hxs, hs, hst⟩
  · exfalso
    have hk : fa.getD 1 - 1 < ss.length := by omega
    refine hnone _ (List.getElem_mem hk) ((hbeg _).2 ?_)
    intro a haf
    rw [hn]
    have : fa.getD 1 = a := by rw [Option.mem_def.1 haf]; rfl
    omega
  · have hl := hpos xs s (ys ++ zs) (by rw [he]; simp) (fun x hx => fun hh => hxs x hx ((hbeg x).2 hh)) ((hbeg s).1 hs)
    refine ⟨s, by rw [he, ← hl]; simp, ?_⟩
    rw [hc]
    congr 4
    rw [← hl]
    cases lb with
    | none =>
      have : zs = [] := by
        cases zs with
        | nil => rfl
        | cons z zs =>
          obtain ⟨b, hb, -⟩ := (hstp z).1 (hzs z rfl)
          cases hb
      subst this
      simp [he]
    | some b =>
      have hlen' : zs ≠ [] → (xs ++ s :: ys).length = b - 1 := by
        intro hz
        obtain ⟨z, zs', rfl⟩ := List.exists_cons_of_ne_nil hz
        obtain ⟨b', hb, hzb⟩ := (hstp z).1 (hzs z rfl)
        cases hb
        have := hn (xs ++ s :: ys).length (by rw [he]; simp)
        simp only [he, List.getElem_append_right (le_refl _), Nat.sub_self, List.getElem_cons_zero] at this
        omega
      have htake : ss.take (b - 1) = xs ++ s :: ys := by
        by_cases hz : zs = []
        · subst hz
          rw [List.append_nil] at he
          rw [he, List.take_of_length_le]
          -- no printed line has the number b
          by_contra hlt
          push Not at hlt
          have hb1 : 1 ≤ b := by have := hab b rfl; omega
          have hb' : b - 1 < ss.length := by rw [he]; exact hlt
          have hnb := hn (b - 1) hb'
          have hge : xs.length ≤ b - 1 := by have := hab b rfl; omega
          have hmem : ss[b - 1] ∈ s :: ys := by
            have : ss[b - 1] = (xs ++ s :: ys)[b - 1]'(by rw [← he]; exact hb') := by simp only [he]
            rw [this, List.getElem_append_right hge]
            exact List.getElem_mem _
          exact hys _ hmem ((hstp _).2 ⟨b, rfl, by omega⟩)
        · rw [← hlen' hz, he, List.take_left]
      simp only
      rw [htake, List.drop_left]
  · exfalso
    obtain ⟨b, hb, hsb⟩ := (hstp s).1 hst
    have hl := hpos xs s zs he (fun x hx => fun hh => hxs x hx ((hbeg x).2 hh)) ((hbeg s).1 hs)
    have hs' : s.n = 1 + xs.length := by
      have := hn xs.length (by rw [he]; simp)
      simp only [he, List.getElem_append_right (le_refl _), Nat.sub_self, List.getElem_cons_zero] at this
      omega
    have := hab b hb
    omega

/-- **C63** (open ends): `a:` prints everything from line `a` on, `:b` the lines before line `b`, and `:` all lines,
each after the preamble for the first of them. -/
theorem C63_open {ts : List (List Char)} {ss : List CropStep} (h : CropTrace 0 newNull ts ss) (hts : ts ≠ [])
    (hp : ∀ s ∈ ss, normalOf s.before.mode ≠ none) :
    (∃ r s, rangeType [':'] = some r ∧ ss[0]? = some s ∧
      crop r ts = ((cropPreamble s.before.copy).1 ++ ss.map (fun s => s.line.str), none)) ∧
    (∀ b : ℕ, 1 < b → ∃ r s, rangeType (':' :: Nat.toDigits 10 b) = some r ∧ ss[0]? = some s ∧
      crop r ts = ((cropPreamble s.before.copy).1 ++ (ss.take (b - 1)).map (fun s => s.line.str), none)) ∧
    (∀ a : ℕ, 1 ≤ a → a ≤ ts.length → ∃ r s, rangeType (Nat.toDigits 10 a ++ [':']) = some r ∧ ss[a - 1]? = some s ∧
      crop r ts = ((cropPreamble s.before.copy).1 ++ (ss.drop (a - 1)).map (fun s => s.line.str), none)) := by
  have hl : 1 ≤ ts.length := by
    cases ts with
    | nil => exact absurd rfl hts
    | cons => simp
  refine ⟨?_, fun b hb => ?_, fun a ha hal => ?_⟩
  · obtain ⟨s, h1, h2⟩ := crop_numbers none none h hp (by simp) (by simp) hl
    exact ⟨_, s, (range_open 0 0).1, h1, by simpa using h2⟩
  · obtain ⟨s, h1, h2⟩ := crop_numbers none (some b) h hp (by simpa using hb) (by simp) hl
    exact ⟨_, s, (range_open 0 b).2.1, h1, by simpa using h2⟩
  · obtain ⟨s, h1, h2⟩ := crop_numbers (some a) none h hp (by simp) ha hal
    exact ⟨_, s, (range_open a 0).2.2, h1, by simpa using h2⟩

/-! ## Examples -/

example : True := by
  obtain ⟨ss, h⟩ := crop_trace
  have h1 := C63_open h (by decide) (crop_planes h)
  have h2 := C63_crop ⟨some [⟨'X', .ge, 2⟩], none⟩ (by
    rintro cs (hc | hc) c hcc
    · cases hc; rw [List.mem_singleton.1 hcc]; simp
    · cases hc) h (crop_planes h)
  trivial

example : (cropText ":3" cropFile).map (fun p => p.1.drop 5) = some ["G01 X1 F100", "Z5"] ∧
    (cropText "5:" cropFile).map (fun p => p.1.drop 7) = some ["X4", "X3"] ∧
    (cropText ":" cropFile).map (fun p => p.1.drop 5) = some ["G01 X1 F100", "Z5", "X2 Y7", "X3 (hi)", "X4", "X3"] := by
  decide +kernel

/-- In plane G18 the way in goes up along Y, over in X and Z, and down along Y. -/
example : (cropText "3:" ["G18 G0 X1 Y5", "Y2", "X3"]).map (fun p => p.1.drop 3) = some ["G00 Y5", "G00 X1 Z0", "G00 Y2", "", "X3"] := by
  decide +kernel

end Pygcode
