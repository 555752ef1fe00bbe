import Verif.Model.GCodes

/-! Facts about the class table (finite checks over all classes) and the lookup maps. -/

namespace Pygcode

theorem Cls.mem_all (c : Cls) : c ∈ Cls.all := by
  cases c <;> decide

theorem Cls.all_nodup : Cls.all.Nodup := by decide +kernel

/-- Lift a check of the whole table to all classes. -/
theorem Cls.forall_of_all {p : Cls → Bool} (h : Cls.all.all p = true) (c : Cls) : p c = true :=
  List.all_eq_true.1 h c (Cls.mem_all c)

/-- Every chain of base classes reaches the root within the depth bound. -/
theorem Cls.chain_root (c : Cls) : Cls.root ∈ Cls.ancestors Cls.depth c := by
  have := Cls.forall_of_all (p := fun c => (Cls.ancestors Cls.depth c).contains .root)
    (by decide +kernel) c
  simpa using this

/-- Two matchers that accept no common word (sound check). -/
def Matcher.disjoint : Matcher → Matcher → Bool
  | .letter a, .letter b => a != b
  | .letter a, .range b _ _ => a != b
  | .letter a, .oneOf b _ => a != b
  | .range a _ _, .letter b => a != b
  | .range a lo hi, .range b lo' hi' => a != b || decide (hi < lo') || decide (hi' < lo)
  | .range a lo hi, .oneOf b vs => a != b || vs.all (fun v => decide (v < lo) || decide (hi < v))
  | .oneOf a _, .letter b => a != b
  | .oneOf a vs, .range b lo hi => a != b || vs.all (fun v => decide (v < lo) || decide (hi < v))
  | .oneOf a vs, .oneOf b vs' => a != b || vs.all (fun v => !vs'.contains v)

theorem Matcher.disjoint_sound {f g : Matcher} (h : f.disjoint g = true) (w : Word)
    (hf : f.test w = true) (hg : g.test w = true) : False := by
  cases f <;> cases g <;>
    simp only [Matcher.test, Matcher.disjoint, beq_iff_eq, bne_iff_ne, Bool.and_eq_true,
      Bool.or_eq_true, decide_eq_true_eq, List.all_eq_true, List.contains_eq_mem,
      Bool.not_eq_true', decide_eq_false_iff_not, ne_eq] at h hf hg
  · exact h (hf.symm.trans hg)
  · exact h (hf.symm.trans hg.1.1)
  · exact h (hf.symm.trans hg.1)
  · exact h (hf.1.1.symm.trans hg)
  · rcases h with (h | h) | h
    · exact h (hf.1.1.symm.trans hg.1.1)
    · linarith [hf.2, hg.1.2]
    · linarith [hg.2, hf.1.2]
  · rcases h with h | h
    · exact h (hf.1.1.symm.trans hg.1)
    · rcases h _ hg.2 with h | h
      · linarith [hf.1.2]
      · linarith [hf.2]
  · exact h (hf.1.symm.trans hg)
  · rcases h with h | h
    · exact h (hf.1.symm.trans hg.1.1)
    · rcases h _ hf.2 with h | h
      · linarith [hg.1.2]
      · linarith [hg.2]
  · rcases h with h | h
    · exact h (hf.1.symm.trans hg.1)
    · exact h _ hf.2 hg.2

theorem keyWord_inj {a b : Char × ℚ} (h : keyWord a = keyWord b) : a = b := by
  cases a; cases b; simp [keyWord] at h; simp [h]

/-- Table check: no two classes share a word key. -/
theorem keys_unique (c d : Cls) (k : Char × ℚ) (hc : c.wordKey = some k) (hd : d.wordKey = some k) :
    c = d := by
  have h := Cls.forall_of_all (p := fun c => Cls.all.all (fun d =>
    c.wordKey.isNone || c.wordKey != d.wordKey || c == d)) (by decide +kernel) c
  have := List.all_eq_true.1 h d (Cls.mem_all d)
  simpa [hc, hd] using this

/-- Table check: no word key is accepted by a matching function. -/
theorem keys_matchers (c d : Cls) (k : Char × ℚ) (f : Matcher) (hc : c.wordKey = some k)
    (hd : d.wordKey = none) (hf : d.matcher = some f) : f.test (keyWord k) = false := by
  have h := Cls.forall_of_all (p := fun c => Cls.all.all (fun d =>
    match c.wordKey, d.wordKey, d.matcher with
    | some k, none, some f => !f.test (keyWord k)
    | _, _, _ => true)) (by decide +kernel) c
  have := List.all_eq_true.1 h d (Cls.mem_all d)
  simpa [hc, hd, hf] using this

/-- Table check: matching functions of different classes are disjoint. -/
theorem matchers_disjoint (c d : Cls) (f g : Matcher) (hc0 : c.wordKey = none)
    (hd0 : d.wordKey = none) (hc : c.matcher = some f) (hd : d.matcher = some g) (hne : c ≠ d) :
    f.disjoint g = true := by
  have h := Cls.forall_of_all (p := fun c => Cls.all.all (fun d =>
    match c.wordKey, d.wordKey, c.matcher, d.matcher with
    | none, none, some f, some g => c == d || f.disjoint g
    | _, _, _, _ => true)) (by decide +kernel) c
  have := List.all_eq_true.1 h d (Cls.mem_all d)
  simpa [hc, hd, hc0, hd0, hne] using this

/-- Entry of the word map for a class. -/
def keyEntry (c : Cls) : Option (Word × Cls) := c.wordKey.map (fun k => (keyWord k, c))

/-- Entry of the function list for a class. -/
def funEntry (c : Cls) : Option (Matcher × Cls) :=
  if c.wordKey.isNone then c.matcher.map (fun f => (f, c)) else none

theorem build_from (cs : List Cls) (m : Maps) (hnd : cs.Nodup)
    (hm : ∀ e ∈ m.wordMap, ∃ c, c ∉ cs ∧ keyEntry c = some e) :
    cs.foldlM buildStep m = .ok ⟨m.wordMap ++ cs.filterMap keyEntry,
      m.funList ++ cs.filterMap funEntry⟩ := by
  induction cs generalizing m with
  | nil => simp; rfl
  | cons c cs ih =>
    rw [List.nodup_cons] at hnd
    rw [List.foldlM_cons]
    cases hk : c.wordKey with
    | some k =>
      have hnot : (m.wordMap.map Prod.fst).contains (keyWord k) = false := by
        rw [← Bool.not_eq_true, List.contains_eq_mem, decide_eq_true_eq, List.mem_map]
        rintro ⟨e, he, hek⟩
        obtain ⟨d, hd, hde⟩ := hm e he
        unfold keyEntry at hde
        cases hdk : d.wordKey with
        | none => rw [hdk] at hde; cases hde
        | some k' =>
          rw [hdk] at hde
          simp at hde
          have : k' = k := keyWord_inj (by rw [← hek, ← hde])
          subst this
          have := keys_unique d c _ hdk hk
          subst this
          exact hd (by simp)
      have hstep : buildStep m c = .ok { m with wordMap := m.wordMap ++ [(keyWord k, c)] } := by
        unfold buildStep; rw [hk]; simp only [hnot]; rfl
      rw [hstep]
      show cs.foldlM buildStep _ = _
      rw [ih _ hnd.2]
      · simp [keyEntry, funEntry, hk]
      · intro e he
        simp only [List.mem_append, List.mem_singleton] at he
        rcases he with he | rfl
        · obtain ⟨d, hd, hde⟩ := hm e he
          exact ⟨d, fun h => hd (by simp [h]), hde⟩
        · exact ⟨c, hnd.1, by simp [keyEntry, hk]⟩
    | none =>
      cases hf : c.matcher with
      | some f =>
        have hstep : buildStep m c = .ok { m with funList := m.funList ++ [(f, c)] } := by
          unfold buildStep; rw [hk, hf]
        rw [hstep]
        show cs.foldlM buildStep _ = _
        rw [ih _ hnd.2]
        · simp [keyEntry, funEntry, hk, hf]
        · intro e he
          obtain ⟨d, hd, hde⟩ := hm e he
          exact ⟨d, fun h => hd (by simp [h]), hde⟩
      | none =>
        have hstep : buildStep m c = .ok m := by
          unfold buildStep; rw [hk, hf]
        rw [hstep]
        show cs.foldlM buildStep _ = _
        rw [ih _ hnd.2]
        · simp [keyEntry, funEntry, hk, hf]
        · intro e he
          obtain ⟨d, hd, hde⟩ := hm e he
          exact ⟨d, fun h => hd (by simp [h]), hde⟩

theorem buildMapsFrom_ok (cs : List Cls) (hnd : cs.Nodup) :
    buildMapsFrom cs = .ok ⟨cs.filterMap keyEntry, cs.filterMap funEntry⟩ := by
  unfold buildMapsFrom
  rw [build_from cs _ hnd (by simp)]
  simp

theorem maps_eq : maps = ⟨Cls.all.filterMap keyEntry, Cls.all.filterMap funEntry⟩ := by
  unfold maps buildMaps
  rw [buildMapsFrom_ok _ Cls.all_nodup]

end Pygcode
