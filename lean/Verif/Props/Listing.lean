import Verif.Model.Registry
import Verif.Spec.Listings
import Verif.Lemmas.ClassChars
import Verif.Props.Published

/-!
# Property C107: listing the gcode classes, and what their descriptions say
-/

namespace Pygcode

namespace Props

variable {K : Type}

/-- `d` derives from `c` through `n` base classes. -/
inductive Derives (H : Hier K) : ℕ → K → K → Prop
  | self (c : K) : Derives H 0 c c
  | step {n : ℕ} {d p c : K} : H.parent d = some p → Derives H n p c → Derives H (n + 1) d c

/-- A sequence of class statements below `root`: each class is new, and its base class has been defined. -/
structure Defined (H : Hier K) (root : K) (defs : List K) : Prop where
  nodup : defs.Nodup
  fresh : root ∉ defs
  top : H.parent root = none
  based : ∀ (i : ℕ) (d : K), defs[i]? = some d →
    ∃ p, H.parent d = some p ∧ (p = root ∨ ∃ j, j < i ∧ defs[j]? = some p)

theorem Derives.down {H : Hier K} {n : ℕ} {d p c : K} (h : Derives H n d p) (hp : H.parent p = some c) :
    Derives H (n + 1) d c := by
  induction h with
  | self p => exact .step hp (.self c)
  | step hd _ ih => exact .step hd (ih hp)

theorem Derives.last {H : Hier K} {n : ℕ} {d c : K} (h : Derives H (n + 1) d c) :
    ∃ x, H.parent x = some c ∧ Derives H n d x := by
  induction n generalizing d with
  | zero =>
    cases h with
    | step hd h => cases h; exact ⟨_, hd, .self _⟩
  | succ n ih =>
    cases h with
    | step hd h =>
      obtain ⟨x, hx, hx'⟩ := ih h
      exact ⟨x, hx, .step hd hx'⟩

theorem Derives.trans {H : Hier K} {n k : ℕ} {d p c : K} (h : Derives H n d p) (hp : Derives H k p c) :
    Derives H (n + k) d c := by
  induction h with
  | self p => rw [Nat.zero_add]; exact hp
  | step hd _ ih => rw [Nat.succ_add]; exact .step hd (ih hp)

theorem Derives.det {H : Hier K} {n j : ℕ} {d c c' : K} (h : Derives H n d c) (h' : Derives H (n + j) d c') :
    Derives H j c c' := by
  induction h with
  | self p => rw [Nat.zero_add] at h'; exact h'
  | step hd _ ih =>
    rw [Nat.succ_add] at h'
    cases h' with
    | step hd' h' =>
      rw [hd] at hd'
      cases hd'
      exact ih h'

section
variable [DecidableEq K]

/-- Place in the order of definition. -/
def place (root : K) (defs : List K) (c : K) : ℕ := if c = root then 0 else defs.idxOf c + 1

theorem place_lt {H : Hier K} {root : K} {defs : List K} (hD : Defined H root defs) {d p : K} (hd : d ∈ defs)
    (hp : H.parent d = some p) : (p = root ∨ p ∈ defs) ∧ place root defs p < place root defs d := by
  obtain ⟨i, hi, he⟩ := List.getElem_of_mem hd
  obtain ⟨p', hp', hb⟩ := hD.based i d (by rw [List.getElem?_eq_getElem hi, he])
  rw [hp] at hp'
  cases hp'
  have hne : d ≠ root := fun h => hD.fresh (h ▸ hd)
  have hdi : defs.idxOf d = i := by rw [← he]; exact hD.nodup.idxOf_getElem i hi
  unfold place
  rw [if_neg hne, hdi]
  rcases hb with rfl | ⟨j, hj, hpj⟩
  · rw [if_pos rfl]
    exact ⟨.inl rfl, Nat.succ_pos _⟩
  · obtain ⟨hj', hpe⟩ := List.getElem?_eq_some_iff.1 hpj
    have hpm : p ∈ defs := hpe ▸ List.getElem_mem hj'
    have hpne : p ≠ root := fun h => hD.fresh (h ▸ hpm)
    have : defs.idxOf p = j := by rw [← hpe]; exact hD.nodup.idxOf_getElem j hj'
    rw [if_neg hpne, this]
    exact ⟨.inr hpm, by omega⟩

theorem place_le {root : K} {defs : List K} {d : K} (hd : d ∈ defs) : place root defs d ≤ defs.length := by
  unfold place
  split
  · exact Nat.zero_le _
  · have := List.idxOf_lt_length_of_mem hd
    omega

theorem derives_place {H : Hier K} {root : K} {defs : List K} (hD : Defined H root defs) {n : ℕ} {d c : K}
    (h : Derives H n d c) (hd : d ∈ defs) : (c = root ∨ c ∈ defs) ∧ place root defs c + n ≤ place root defs d := by
  induction h with
  | self c => exact ⟨.inr hd, Nat.le_refl _⟩
  | @step n d p c hp h ih =>
    obtain ⟨hm, hlt⟩ := place_lt hD hd hp
    rcases hm with rfl | hm
    · cases h with
      | self => exact ⟨.inl rfl, by omega⟩
      | step hr _ => rw [hD.top] at hr; cases hr
    · obtain ⟨hc, hle⟩ := ih hm
      exact ⟨hc, by omega⟩

theorem derives_unique {H : Hier K} {root : K} {defs : List K} (hD : Defined H root defs) {n k : ℕ} {d c : K}
    (hd : d ∈ defs) (h : Derives H n d c) (h' : Derives H k d c) : n = k := by
  have key : ∀ {n k : ℕ}, n ≤ k → Derives H n d c → Derives H k d c → n = k := by
    intro n k hnk h h'
    obtain ⟨j, rfl⟩ := Nat.exists_eq_add_of_le hnk
    have hj := h.det h'
    by_contra hne
    have hj0 : j ≠ 0 := by omega
    rcases (derives_place hD h hd).1 with rfl | hc
    · cases hj with
      | self => exact hj0 rfl
      | step hr _ => rw [hD.top] at hr; cases hr
    · have := (derives_place hD hj hc).2
      omega
  rcases Nat.le_total n k with hnk | hnk
  · exact key hnk h h'
  · exact (key hnk h' h).symm

theorem mem_children {H : Hier K} {defs : List K} {c d : K} : d ∈ H.children defs c ↔ d ∈ defs ∧ H.parent d = some c := by
  unfold Hier.children
  rw [List.mem_insertionSort, List.mem_filter]
  simp

theorem children_nodup {H : Hier K} {defs : List K} (h : defs.Nodup) (c : K) : (H.children defs c).Nodup := by
  unfold Hier.children
  exact (List.perm_insertionSort _ _).nodup_iff.2 (h.filter _)

theorem mem_levels {H : Hier K} {root : K} {defs : List K} (hD : Defined H root defs) (n : ℕ) (c d : K) (l m : ℕ) :
    (d, m) ∈ H.levels defs n c l ↔ ∃ k, k < n ∧ m = l + k ∧ Derives H k d c ∧ (k = 0 ∨ d ∈ defs) := by
  induction n generalizing c l with
  | zero => simp [Hier.levels]
  | succ n ih =>
    rw [Hier.levels, List.mem_cons, List.mem_flatMap]
    constructor
    · rintro (h | ⟨x, hx, hm⟩)
      · cases h
        exact ⟨0, Nat.succ_pos _, rfl, .self _, .inl rfl⟩
      · obtain ⟨k, hk, rfl, hder, hin⟩ := (ih x (l + 1)).1 hm
        obtain ⟨hxd, hxp⟩ := mem_children.1 hx
        refine ⟨k + 1, by omega, by omega, hder.down hxp, .inr ?_⟩
        rcases hin with rfl | hin
        · cases hder; exact hxd
        · exact hin
    · rintro ⟨k, hk, rfl, hder, hin⟩
      cases k with
      | zero => cases hder; exact .inl rfl
      | succ k =>
        right
        have hd : d ∈ defs := by
          rcases hin with h | h
          · cases h
          · exact h
        obtain ⟨x, hx, hx'⟩ := hder.last
        have hxd : x ∈ defs := by
          rcases (derives_place hD hx' hd).1 with rfl | h
          · rw [hD.top] at hx; cases hx
          · exact h
        exact ⟨x, mem_children.2 ⟨hxd, hx⟩, (ih x (l + 1)).2 ⟨k, by omega, by omega, hx', .inr hd⟩⟩

theorem levels_nodup {H : Hier K} {root : K} {defs : List K} (hD : Defined H root defs) (n : ℕ) (c : K) (l : ℕ) :
    ((H.levels defs n c l).map Prod.fst).Nodup := by
  induction n generalizing c l with
  | zero => exact List.nodup_nil
  | succ n ih =>
    have hmem : ∀ {x d : K} {l : ℕ}, d ∈ (H.levels defs n x l).map Prod.fst →
        ∃ k, Derives H k d x ∧ (k = 0 ∨ d ∈ defs) := by
      intro x d l hm
      obtain ⟨⟨d', m⟩, hm', rfl⟩ := List.mem_map.1 hm
      obtain ⟨k, -, -, h1, h2⟩ := (mem_levels hD n x d' l m).1 hm'
      exact ⟨k, h1, h2⟩
    have hin : ∀ {x d : K} {l : ℕ}, x ∈ H.children defs c → d ∈ (H.levels defs n x l).map Prod.fst →
        d ∈ defs ∧ ∃ k, Derives H k d x := by
      intro x d l hx hm
      obtain ⟨k, h1, h2⟩ := hmem hm
      refine ⟨?_, k, h1⟩
      rcases h2 with rfl | h2
      · cases h1; exact (mem_children.1 hx).1
      · exact h2
    rw [Hier.levels, List.map_cons, List.nodup_cons, List.map_flatMap]
    constructor
    · rw [List.mem_flatMap]
      rintro ⟨x, hx, hm⟩
      obtain ⟨hc, k, hk⟩ := hin hx hm
      have h := (derives_place hD (hk.down (mem_children.1 hx).2) hc).2
      simp only at h
      omega
    · rw [List.nodup_flatMap]
      refine ⟨fun x _ => ih x (l + 1), ?_⟩
      refine (children_nodup hD.nodup c).imp_of_mem ?_
      intro x y hx hy hne d hdx hdy
      obtain ⟨hd, k, hk⟩ := hin hx hdx
      obtain ⟨-, k', hk'⟩ := hin hy hdy
      have he := derives_unique hD hd (hk.down (mem_children.1 hx).2) (hk'.down (mem_children.1 hy).2)
      obtain rfl : k = k' := by omega
      cases hk.det (j := 0) hk'
      exact hne rfl

theorem derives_short {H : Hier K} {root : K} {defs : List K} (hD : Defined H root defs) {k : ℕ} {d c : K}
    (h : Derives H k d c) (hd : k = 0 ∨ d ∈ defs) : k < defs.length + 1 := by
  rcases hd with rfl | hd
  · exact Nat.succ_pos _
  · have h1 := (derives_place hD h hd).2
    have h2 := place_le (root := root) hd
    omega

/-- The list of a class below another one is part of the other one's list. -/
theorem levels_sublist {H : Hier K} {root : K} {defs : List K} (hD : Defined H root defs) {k : ℕ} {p c : K}
    (h : Derives H k p c) (hp : k = 0 ∨ p ∈ defs) (n l : ℕ) :
    (H.levels defs n p (l + k)).Sublist (H.levels defs (n + k) c l) := by
  induction k generalizing c l with
  | zero => cases h; exact List.Sublist.refl _
  | succ k ih =>
    have hpd : p ∈ defs := by
      rcases hp with h | h
      · cases h
      · exact h
    obtain ⟨x, hx, hx'⟩ := h.last
    have hxd : x ∈ defs := by
      rcases (derives_place hD hx' hpd).1 with rfl | h
      · rw [hD.top] at hx; cases hx
      · exact h
    have h1 := ih hx' (.inr hpd) (l + 1)
    rw [show l + (k + 1) = l + 1 + k by omega, show n + (k + 1) = n + k + 1 by omega]
    refine h1.trans ?_
    rw [show H.levels defs (n + k + 1) c l = (c, l) :: (H.children defs c).flatMap
      (fun d => H.levels defs (n + k) d (l + 1)) from rfl]
    refine List.Sublist.cons _ ?_
    obtain ⟨s, t, hst⟩ := List.append_of_mem (mem_children.2 ⟨hxd, hx⟩)
    rw [hst, List.flatMap_append, List.flatMap_cons]
    exact (List.sublist_append_left _ _).trans (List.sublist_append_right _ _)

theorem textLe_total (a b : List Char) : textLe a b = true ∨ textLe b a = true := by
  induction a generalizing b with
  | nil => exact .inl rfl
  | cons x s ih =>
    cases b with
    | nil => exact .inr rfl
    | cons y t =>
      simp only [textLe, Bool.or_eq_true, decide_eq_true_eq, Bool.and_eq_true, beq_iff_eq]
      rcases Nat.lt_trichotomy x.toNat y.toNat with h | h | h
      · exact .inl (.inl h)
      · rcases ih t with h' | h'
        · exact .inl (.inr ⟨h, h'⟩)
        · exact .inr (.inr ⟨h.symm, h'⟩)
      · exact .inr (.inl h)

theorem textLe_trans {a b c : List Char} (h : textLe a b = true) (h' : textLe b c = true) : textLe a c = true := by
  induction a generalizing b c with
  | nil => rfl
  | cons x s ih =>
    cases b with
    | nil => cases h
    | cons y t =>
      cases c with
      | nil => cases h'
      | cons z u =>
        simp only [textLe, Bool.or_eq_true, decide_eq_true_eq, Bool.and_eq_true, beq_iff_eq] at h h' ⊢
        rcases h with h | ⟨h, hs⟩ <;> rcases h' with h' | ⟨h', hs'⟩
        · exact .inl (by omega)
        · exact .inl (by omega)
        · exact .inl (by omega)
        · exact .inr ⟨by omega, ih hs hs'⟩

theorem children_sorted (H : Hier K) (defs : List K) (c : K) :
    (H.children defs c).Pairwise (fun a b => textLe (H.name a) (H.name b) = true) := by
  have : Std.Total (fun a b : K => textLe (H.name a) (H.name b) = true) :=
    ⟨fun a b => textLe_total _ _⟩
  have : IsTrans K (fun a b : K => textLe (H.name a) (H.name b) = true) :=
    ⟨fun _ _ _ h h' => textLe_trans h h'⟩
  exact List.pairwise_insertionSort _ _

end

end Props

open Props

variable {K : Type} [DecidableEq K]

/-- **C107** (each class once): whatever classes have been defined, the list of the classes below any class has each
class deriving from it, and itself, exactly once. -/
theorem C107_each (H : Hier K) (root : K) (defs : List K) (hD : Defined H root defs) (c : K) :
    (H.subclasses defs c).Nodup ∧
    ∀ d, d ∈ H.subclasses defs c ↔ d = c ∨ (d ∈ defs ∧ ∃ n, Derives H n d c) := by
  refine ⟨levels_nodup hD _ _ _, fun d => ?_⟩
  unfold Hier.subclasses Hier.listing
  rw [List.mem_map]
  constructor
  · rintro ⟨⟨d', m⟩, hm, rfl⟩
    obtain ⟨k, -, -, h1, rfl | h2⟩ := (mem_levels hD _ _ _ _ _).1 hm
    · cases h1; exact .inl rfl
    · exact .inr ⟨h2, k, h1⟩
  · rintro (rfl | ⟨hd, n, hn⟩)
    · exact ⟨(d, 0), (mem_levels hD _ _ _ _ _).2 ⟨0, Nat.succ_pos _, rfl, .self _, .inl rfl⟩, rfl⟩
    · exact ⟨(d, 0 + n), (mem_levels hD _ _ _ _ _).2 ⟨n, derives_short hD hn (.inr hd), rfl, hn, .inr hd⟩, rfl⟩

/-- **C107** (levels): the number beside a class is the number of base classes between. -/
theorem C107_level (H : Hier K) (root : K) (defs : List K) (hD : Defined H root defs) (c d : K) (n : ℕ)
    (hd : d ∈ defs) : (d, n) ∈ H.listing defs c ↔ Derives H n d c := by
  unfold Hier.listing
  rw [mem_levels hD]
  constructor
  · rintro ⟨k, -, rfl, h, -⟩
    rwa [Nat.zero_add]
  · intro h
    exact ⟨n, derives_short hD h (.inr hd), by omega, h, .inr hd⟩

/-- **C107** (base classes first). -/
theorem C107_below (H : Hier K) (root : K) (defs : List K) (hD : Defined H root defs) (c p d : K) (k n : ℕ)
    (hp : Derives H k p c) (hpd : p = c ∨ p ∈ defs) (hd : d ∈ defs) (hn : Derives H (n + 1) d p) :
    [p, d].Sublist (H.subclasses defs c) := by
  have hshort := derives_short hD (hn.trans hp) (.inr hd)
  have hk : k = 0 ∨ p ∈ defs := by
    rcases hpd with rfl | h
    · rcases (derives_place hD hn hd).1 with rfl | hm
      · left
        cases hp with
        | self => rfl
        | step hr _ => rw [hD.top] at hr; cases hr
      · exact .inr hm
    · exact .inr h
  have hs := levels_sublist hD hp hk (defs.length + 1 - k) 0
  rw [show defs.length + 1 - k + k = defs.length + 1 by omega] at hs
  have hs' := hs.map Prod.fst
  refine List.Sublist.trans ?_ hs'
  have hm : (d, 0 + k + (n + 1)) ∈ H.levels defs (defs.length + 1 - k) p (0 + k) :=
    (mem_levels hD _ _ _ _ _).2 ⟨n + 1, by omega, rfl, hn, .inr hd⟩
  obtain ⟨q, hq⟩ : ∃ q, defs.length + 1 - k = q + 1 := ⟨defs.length - k, by omega⟩
  rw [hq, Hier.levels, List.mem_cons] at hm
  rw [hq, Hier.levels, List.map_cons]
  refine List.Sublist.cons_cons _ (List.singleton_sublist.2 (List.mem_map.2 ⟨(d, 0 + k + (n + 1)), ?_, rfl⟩))
  rcases hm with hm | hm
  · simp only [Prod.mk.injEq] at hm
    omega
  · exact hm

/-- **C107** (names): of two classes with the same base class, the one whose name comes first is listed first, with
everything that derives from it. -/
theorem C107_names (H : Hier K) (root : K) (defs : List K) (hD : Defined H root defs) (c p a b x y : K) (k i j : ℕ)
    (hp : Derives H k p c) (hpd : p = c ∨ p ∈ defs) (ha : H.parent a = some p) (hb : H.parent b = some p)
    (hlt : textLe (H.name b) (H.name a) = false) (hx : Derives H i x a) (hxd : x ∈ defs) (hy : Derives H j y b)
    (hyd : y ∈ defs) : [x, y].Sublist (H.subclasses defs c) := by
  have hin : ∀ {a x : K} {i : ℕ}, H.parent a = some p → Derives H i x a → x ∈ defs → a ∈ defs := by
    intro a x i ha hx hxd
    rcases (derives_place hD hx hxd).1 with rfl | h
    · rw [hD.top] at ha; cases ha
    · exact h
  have had := hin ha hx hxd
  have hbd := hin hb hy hyd
  have hk : k = 0 ∨ p ∈ defs := by
    rcases hpd with rfl | h
    · rcases (derives_place hD (hx.down ha) hxd).1 with rfl | hm
      · left
        cases hp with
        | self => rfl
        | step hr _ => rw [hD.top] at hr; cases hr
      · exact .inr hm
    · exact .inr h
  have h1 := derives_short hD ((hx.down ha).trans hp) (.inr hxd)
  have h2 := derives_short hD ((hy.down hb).trans hp) (.inr hyd)
  have hs := levels_sublist hD hp hk (defs.length + 1 - k) 0
  rw [show defs.length + 1 - k + k = defs.length + 1 by omega] at hs
  refine List.Sublist.trans ?_ (hs.map Prod.fst)
  obtain ⟨q, hq⟩ : ∃ q, defs.length + 1 - k = q + 1 := ⟨defs.length - k, by omega⟩
  rw [hq, Hier.levels, List.map_cons, List.map_flatMap]
  refine List.Sublist.cons _ ?_
  have hmx : x ∈ (H.levels defs q a (0 + k + 1)).map Prod.fst :=
    List.mem_map.2 ⟨(x, 0 + k + 1 + i), (mem_levels hD _ _ _ _ _).2 ⟨i, by omega, rfl, hx, .inr hxd⟩, rfl⟩
  have hmy : y ∈ (H.levels defs q b (0 + k + 1)).map Prod.fst :=
    List.mem_map.2 ⟨(y, 0 + k + 1 + j), (mem_levels hD _ _ _ _ _).2 ⟨j, by omega, rfl, hy, .inr hyd⟩, rfl⟩
  have hca := mem_children.2 ⟨had, ha⟩
  have hcb := mem_children.2 ⟨hbd, hb⟩
  obtain ⟨s, t, hst⟩ := List.append_of_mem hca
  have hsort := children_sorted H defs p
  rw [hst] at hsort hcb
  have hbt : b ∈ t := by
    rcases List.mem_append.1 hcb with h | h
    · have := (List.pairwise_append.1 hsort).2.2 b h a List.mem_cons_self
      rw [hlt] at this; cases this
    · rcases List.mem_cons.1 h with rfl | h
      · rcases textLe_total (H.name b) (H.name b) with h | h <;> rw [hlt] at h <;> cases h
      · exact h
  obtain ⟨t1, t2, rfl⟩ := List.append_of_mem hbt
  rw [hst, List.flatMap_append, List.flatMap_cons, List.flatMap_append, List.flatMap_cons]
  refine List.Sublist.trans ?_ (List.sublist_append_right _ _)
  exact List.Sublist.append (l₁ := [x]) (List.singleton_sublist.2 hmx)
    (List.Sublist.trans (List.Sublist.trans (List.singleton_sublist.2 hmy) (List.sublist_append_left _ _))
      (List.sublist_append_right _ _))

/-! ## The classes of gcodes.py -/

namespace Props

theorem builtin_defined : Defined builtin .root Cls.source where
  nodup := by decide +kernel
  fresh := by decide +kernel
  top := rfl
  based := by
    intro i d hi
    have hc : (List.range Cls.source.length).all (fun i => match Cls.source[i]? with
        | none => true
        | some d => match d.parent with
          | none => false
          | some p => decide (p = .root) || (Cls.source.take i).contains p) = true := by decide +kernel
    obtain ⟨hlt, -⟩ := List.getElem?_eq_some_iff.1 hi
    have := List.all_eq_true.1 hc i (List.mem_range.2 hlt)
    rw [hi] at this
    simp only at this
    cases hp : d.parent with
    | none => rw [hp] at this; cases this
    | some p =>
      rw [hp] at this
      simp only [Bool.or_eq_true, decide_eq_true_eq, List.contains_eq_mem] at this
      refine ⟨p, hp, this.imp id (fun hm => ?_)⟩
      obtain ⟨j, hj, he⟩ := List.getElem_of_mem hm
      rw [List.length_take] at hj
      refine ⟨j, by omega, ?_⟩
      rw [List.getElem_take] at he
      rw [List.getElem?_eq_getElem (by omega), he]

/-- `builtin`, with names that need not be taken apart. -/
def builtin' : Hier Cls := { builtin with name := Cls.nameChars }

theorem builtin_eq : builtin = builtin' := by
  unfold builtin' builtin
  simp only [Hier.mk.injEq, and_true]
  exact funext Cls.pyName_toList

/-- Without the blanks at the end. -/
def rstripBlanks (s : List Char) : List Char := (s.reverse.dropWhile (· == ' ')).reverse

/-- The beginning of a description in front of the first colon, if there is one. -/
def headerOf (s : List Char) : Option (List Char) :=
  if s.contains ':' then some (s.takeWhile (· != ':')) else none

/-- What a description names: all words with a letter, one word, or a range of words. -/
inductive DocEntry
  | letter (l : Char)
  | word (l : Char) (q : ℚ)
  | range (l : Char) (lo hi : ℚ)
  deriving DecidableEq

/-- The number written as `digits` or `digits.digits`. -/
def docNum (s : List Char) : ℚ :=
  match s.splitOn '.' with
  | [i, f] => (Spec.digitsVal i : ℚ) + (Spec.digitsVal f : ℚ) / 10 ^ f.length
  | _ => (Spec.digitsVal s : ℚ)

/-- `F`, `G17.1` or `G38.2-G38.5`. -/
def docEntry (s : List Char) : DocEntry :=
  match s.splitOn '-' with
  | [a, b] => .range (a.headD ' ') (docNum a.tail) (docNum b.tail)
  | _ => if s.tail = [] then .letter (s.headD ' ') else .word (s.headD ' ') (docNum s.tail)

/-- The words that the description of a class names: the parts of its header between commas. -/
def docEntries (c : Cls) : List DocEntry :=
  match c.doc.bind headerOf with
  | none => []
  | some h => (h.splitOn ',').map docEntry

/-- The word is one of those named. -/
def DocEntry.Names : DocEntry → Word → Prop
  | .letter l, w => w.letter = l
  | .word l q, w => w.letter = l ∧ w.num = q
  | .range l lo hi, w => w.letter = l ∧ lo ≤ w.num ∧ w.num ≤ hi

/-- `DocEntry.Names`, decided. -/
def DocEntry.namesB : DocEntry → Char → ℚ → Bool
  | .letter l, l', _ => l' == l
  | .word l q, l', q' => l' == l && decide (q' = q)
  | .range l lo hi, l', q' => l' == l && decide (lo ≤ q') && decide (q' ≤ hi)

theorem DocEntry.namesB_iff (e : DocEntry) (w : Word) : e.namesB w.letter w.num = true ↔ e.Names w := by
  cases e <;> simp [DocEntry.namesB, DocEntry.Names, and_assoc]

/-- Classes whose description begins without a word, although there is one they are found by. -/
def Untitled (c : Cls) : Prop :=
  c ∈ [.selectCoordinateSystem1, .selectCoordinateSystem2, .selectCoordinateSystem3, .selectCoordinateSystem4,
    .selectCoordinateSystem5, .selectCoordinateSystem6, .selectCoordinateSystem7, .selectCoordinateSystem8,
    Cls.selectCoordinateSystem9]

instance (c : Cls) : Decidable (Untitled c) := by unfold Untitled; infer_instance

end Props

/-- **C107** (the order of lookup): the classes of gcodes.py are registered in the order of the listing. -/
theorem C107_table : builtin.subclasses Cls.source .root = Cls.all := by
  rw [builtin_eq]
  decide +kernel

/-- **C107** (the printed listing): the text of `_gcode_class_infostr(prefix='    # ')` is the comment in __init__.py,
line by line, up to blanks at the end of lines. -/
theorem C107_comment :
    ∃ ls : List (List Char), builtin.infoStr Cls.source (chars! "    # ") .root = ls.flatMap (· ++ ['\n']) ∧
      (∀ l ∈ ls, '\n' ∉ l) ∧ ls.map rstripBlanks = Listings.comment := by
  refine ⟨(builtin.listing Cls.source .root).map (builtin.infoLine (chars! "    # ")), ?_, ?_, ?_⟩
  · unfold Hier.infoStr
    rw [List.flatMap_map]
  · have h : ((builtin.listing Cls.source .root).map (builtin.infoLine (chars! "    # "))).all
        (fun l => !l.contains '\n') = true := by
      rw [builtin_eq]
      decide +kernel
    intro l hl
    simpa using List.all_eq_true.1 h l hl
  · rw [builtin_eq]
    decide +kernel

/-- **C107** (what the package exports): the name of every class is imported by __init__.py and listed in `__all__`,
and all that `__all__` lists is imported. -/
theorem C107_exported :
    (∀ c : Cls, c.pyName.toList ∈ Listings.exported ∧ c.pyName.toList ∈ Listings.imported) ∧
    Listings.exported ⊆ Listings.imported := by
  have h1 : Listings.exported.drop 19 = Cls.byName.map Cls.nameChars := by decide +kernel
  have h2 : Listings.imported.drop 19 = Cls.byName.map Cls.nameChars := by decide +kernel
  have h3 : (Listings.exported.take 19).all (fun n => (Listings.imported.take 19).contains n) = true := by decide +kernel
  refine ⟨fun c => ?_, fun n hn => ?_⟩
  · have hc : c ∈ Cls.byName := by
      have := Cls.forall_of_all (p := fun c => Cls.byName.contains c) (by decide +kernel) c
      simpa using this
    have hm := List.mem_map_of_mem (f := Cls.nameChars) hc
    rw [Cls.pyName_toList]
    exact ⟨List.mem_of_mem_drop (h1 ▸ hm), List.mem_of_mem_drop (h2 ▸ hm)⟩
  · rw [← List.take_append_drop 19 Listings.exported, List.mem_append] at hn
    rcases hn with hn | hn
    · have := List.all_eq_true.1 h3 n hn
      simp only [List.contains_eq_mem, decide_eq_true_eq] at this
      exact List.mem_of_mem_take this
    · rw [h1, ← h2] at hn
      exact List.mem_of_mem_drop hn

/-- **C107** (descriptions): the description of the class of a word begins with this word, or with a list, a range or
the letter that it belongs to; the nine coordinate systems aside. -/
theorem C107_documented (w : Word) (c : Cls) (h : wordClass w = some c) (hu : ¬ Untitled c) :
    ∃ e ∈ docEntries c, e.Names w := by
  have := claims_check (fun l q c => decide (Untitled c) || (docEntries c).any (fun e => e.namesB l q)) w c h
    (by decide +kernel)
    (by
      simp only [show docEntries .lineNumber = [.letter 'N'] by decide +kernel,
        show docEntries .programName = [.letter 'O'] by decide +kernel,
        show docEntries .feedRate = [.letter 'F'] by decide +kernel,
        show docEntries .spindleSpeed = [.letter 'S'] by decide +kernel,
        show docEntries .selectTool = [.letter 'T'] by decide +kernel]
      rfl)
    (fun h1 h2 => by
      rw [show docEntries .straightProbe = [.range 'G' (191 / 5) (77 / 2)] by decide +kernel]
      simp [DocEntry.namesB, h1, h2])
    (by decide +kernel)
  simp only [Bool.or_eq_true, decide_eq_true_eq, List.any_eq_true] at this
  obtain ⟨e, he, hn⟩ := this.resolve_left hu
  exact ⟨e, he, (e.namesB_iff w).1 hn⟩

/-- **C107** (descriptions): a word named at the beginning of the description of a class is found as this class or one
deriving from it, GCodeUserDefined aside. -/
theorem C107_found (w : Word) (hw : w.WF) (c : Cls) (hc : c ≠ .userDefined) (e : DocEntry) (he : e ∈ docEntries c)
    (hn : e.Names w) : ∃ d : Cls, wordClass w = some d ∧ d.isSub c = true := by
  have hself : c.isSub c = true := by simp [Cls.isSub, Cls.ancestors, Cls.depth]
  have hchk := Cls.forall_of_all (p := fun c => decide (c = .userDefined) || (docEntries c).all (fun e => match e with
    | .letter l => decide (c.wordKey = none) && decide (c.matcher = some (.letter l)) &&
        ['G', 'M', 'F', 'S', 'T', 'N', 'O'].contains l
    | .word l q => (l == 'G' || l == 'M') && (match wordClass ⟨l, .num q⟩ with | some d => d.isSub c | none => false)
    | .range l lo hi => decide (c.wordKey = none) && decide (c.matcher = some (.range l lo hi)) &&
        ['G', 'M', 'F', 'S', 'T', 'N', 'O'].contains l)) (by decide +kernel) c
  simp only [Bool.or_eq_true, decide_eq_true_eq, List.all_eq_true] at hchk
  have := hchk.resolve_left hc e he
  cases e with
  | letter l =>
    simp only [Bool.and_eq_true, decide_eq_true_eq, List.contains_eq_mem] at this
    refine ⟨c, (C15_lookup false w c).2 ⟨.inr (by rw [hn]; exact this.2), .inr ⟨this.1.1, _, this.1.2, ?_⟩⟩, hself⟩
    have hn : w.letter = l := hn
    simpa [Matcher.test] using hn
  | word l q =>
    simp only [Bool.and_eq_true, Bool.or_eq_true, beq_iff_eq] at this
    have hval : w = ⟨l, .num q⟩ := by
      obtain ⟨hl, hq⟩ := hn
      obtain ⟨l', v⟩ := w
      simp only at hl
      subst hl
      cases v with
      | num r => simp only [Word.num] at hq; rw [hq]
      | str s =>
        rcases this.1 with h | h <;> rw [h] at hw <;> exact hw.elim
    rw [hval]
    cases hd : wordClass ⟨l, .num q⟩ with
    | none => rw [hd] at this; cases this.2
    | some d => rw [hd] at this; exact ⟨d, rfl, this.2⟩
  | range l lo hi =>
    simp only [Bool.and_eq_true, decide_eq_true_eq, List.contains_eq_mem] at this
    obtain ⟨hl, h1, h2⟩ := hn
    refine ⟨c, (C15_lookup false w c).2 ⟨.inr (by rw [hl]; exact this.2), .inr ⟨this.1.1, _, this.1.2, ?_⟩⟩, hself⟩
    simp [Matcher.test, hl, h1, h2]

/-- **C107** (user defined commands): the class described as "M101-M199" is found for no word, and those words are
not found at all. -/
theorem C107_user_refuted : docEntries .userDefined = [.range 'M' 101 199] ∧
    (∀ w : Word, wordClass w ≠ some .userDefined) ∧
    ∀ q : ℚ, 101 ≤ q → q ≤ 199 → wordClass ⟨'M', .num q⟩ = none := by
  refine ⟨by decide +kernel, ?_, ?_⟩
  · intro w h
    obtain ⟨-, ⟨l, q, hk, -⟩ | ⟨-, f, hf, -⟩⟩ := (C15_lookup false w _).1 h
    · rw [show Cls.userDefined.wordKey = none by decide +kernel] at hk; cases hk
    · rw [show Cls.userDefined.matcher = none by decide +kernel] at hf; cases hf
  · intro q h1 h2
    cases hc : wordClass ⟨'M', .num q⟩ with
    | none => rfl
    | some c =>
      exfalso
      have := claims_check (fun l q c => decide (l = 'M' → q < 101)) _ c hc (by decide +kernel) (by simp)
        (fun _ _ => by simp) (by decide +kernel)
      simp only [decide_eq_true_eq, true_implies] at this
      rw [show (⟨'M', .num q⟩ : Word).num = q from rfl] at this
      linarith

/-! ## Instances -/

example : (builtin.subclasses Cls.source .motion).Nodup := (C107_each _ _ _ builtin_defined .motion).1

/-- Two classes deriving from GCodeMotion, one through GCodeArcMove. -/
example : Derives builtin 2 .arcMoveCW .motion ∧ (Cls.arcMoveCW, 2) ∈ builtin.listing Cls.source .motion := by
  have h : Derives builtin 2 .arcMoveCW .motion := .step (p := .arcMove) rfl (.step (p := .motion) rfl (.self _))
  exact ⟨h, (C107_level _ _ _ builtin_defined _ _ _ (by decide +kernel)).2 h⟩

example : [Cls.motion, .linearMove].Sublist (builtin.subclasses Cls.source .root) :=
  C107_below _ _ _ builtin_defined .root .motion .linearMove 1 0 (.step (p := .root) rfl (.self _))
    (.inr (by decide +kernel)) (by decide +kernel) (.step (p := .motion) rfl (.self _))

/-- G02 before G01: GCodeArcMove comes before GCodeLinearMove. -/
example : [Cls.arcMoveCW, .linearMove].Sublist (builtin.subclasses Cls.source .root) :=
  C107_names _ _ _ builtin_defined .root .motion .arcMove .linearMove .arcMoveCW .linearMove 1 1 0
    (.step (p := .root) rfl (.self _)) (.inr (by decide +kernel)) rfl rfl (by decide +kernel)
    (.step (p := .arcMove) rfl (.self _)) (by decide +kernel) (.self _) (by decide +kernel)

example : ∃ e ∈ docEntries .straightProbe, e.Names ⟨'G', .num (383 / 10)⟩ :=
  C107_documented _ _ (by decide +kernel) (by decide +kernel)

/-- M3,M4 are named by GCodeStartSpindle; M4 is found as GCodeStartSpindleCCW. -/
example : ∃ d : Cls, wordClass ⟨'M', .num 4⟩ = some d ∧ d.isSub .startSpindle = true :=
  C107_found ⟨'M', .num 4⟩ trivial .startSpindle (by decide) (.word 'M' 4) (by decide +kernel) ⟨rfl, rfl⟩

example : wordClass ⟨'M', .num 150⟩ = none := C107_user_refuted.2.2 150 (by norm_num) (by norm_num)

end Pygcode
