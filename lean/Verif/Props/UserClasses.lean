import Verif.Props.Listing

/-!
# Property C108: gcode classes defined by users

"To create user g-codes, inherit from this class" (gcodes.py:1349).
-/

namespace Pygcode

namespace Props

variable {K : Type} [DecidableEq K]

/-- A class takes a word: by its `word_key`, or (if it has none) by its `word_matches`. -/
def Takes (H : Hier K) (c : K) (w : Word) : Prop :=
  H.key c = some w ∨ (H.key c = none ∧ ∃ f, H.test c = some f ∧ f w = true)

/-- The answer for a word when the classes `cs` are known, in this order: the class with this word, otherwise the
first one, among those without a word of their own, whose test accepts it. -/
def answer (H : Hier K) (cs : List K) (exhaustive : Bool) (w : Word) : Option K :=
  if exhaustive = true ∨ w.letter ∈ ['G', 'M', 'F', 'S', 'T', 'N', 'O'] then
    match cs.find? (fun c => H.key c == some w) with
    | some c => some c
    | none => cs.find? (fun c => (H.key c).isNone && (match H.test c with | some f => f w | none => false))
  else none

/-- The classes defined before the first lookup or build. -/
def firstDefs : List (Registry.Event K) → List K
  | .define c :: es => c :: firstDefs es
  | _ => []

/-- All the classes defined. -/
def allDefs : List (Registry.Event K) → List K
  | [] => []
  | .define c :: es => c :: allDefs es
  | _ :: es => allDefs es

/-- No call of `build_maps`. -/
def NoBuild (es : List (Registry.Event K)) : Prop := Registry.Event.build ∉ es

/-! ### Filling the maps -/

/-- Entry of the word map. -/
def uKey (H : Hier K) (c : K) : Option (Word × K) := (H.key c).map (fun k => (k, c))

/-- Entry of the function list. -/
def uFun (H : Hier K) (c : K) : Option ((Word → Bool) × K) :=
  match H.key c with
  | some _ => none
  | none => (H.test c).map (fun f => (f, c))

theorem fill_ok (H : Hier K) (cs : List K) (r : Registry K)
    (h : (r.wordMap.map Prod.fst ++ cs.filterMap H.key).Nodup) :
    Registry.fill H r cs = (⟨r.defs, true, r.wordMap ++ cs.filterMap (uKey H), r.funList ++ cs.filterMap (uFun H)⟩, none) := by
  induction cs generalizing r with
  | nil => simp [Registry.fill]
  | cons c cs ih =>
    rw [Registry.fill]
    cases hk : H.key c with
    | some k =>
      have hf : (c :: cs).filterMap H.key = k :: cs.filterMap H.key := by rw [List.filterMap_cons, hk]
      rw [hf] at h
      have hn : ¬ ((r.wordMap.map Prod.fst).contains k = true) := by
        rw [List.contains_eq_mem, decide_eq_true_eq]
        intro hm
        exact (List.nodup_append.1 h).2.2 k hm k List.mem_cons_self rfl
      simp only
      rw [if_neg hn, ih]
      · simp [List.filterMap_cons, uKey, uFun, hk]
      · simpa [List.append_assoc] using h
    | none =>
      have hf : (c :: cs).filterMap H.key = cs.filterMap H.key := by rw [List.filterMap_cons, hk]
      rw [hf] at h
      simp only
      cases ht : H.test c with
      | none =>
        simp only
        rw [ih r h]
        simp [List.filterMap_cons, uKey, uFun, hk, ht]
      | some f =>
        simp only
        rw [ih { r with funList := r.funList ++ [(f, c)] } h]
        simp [List.filterMap_cons, uKey, uFun, hk, ht]

theorem fill_clash (H : Hier K) (cs : List K) (r : Registry K) (hr : (r.wordMap.map Prod.fst).Nodup)
    (h : ¬ (r.wordMap.map Prod.fst ++ cs.filterMap H.key).Nodup) :
    ∃ r', Registry.fill H r cs = (r', some .runtime) ∧ r'.defs = r.defs ∧ r'.created = r.created := by
  induction cs generalizing r with
  | nil => simp at h; exact absurd hr h
  | cons c cs ih =>
    rw [Registry.fill]
    cases hk : H.key c with
    | some k =>
      have hf : (c :: cs).filterMap H.key = k :: cs.filterMap H.key := by rw [List.filterMap_cons, hk]
      rw [hf] at h
      simp only
      by_cases hn : (r.wordMap.map Prod.fst).contains k = true
      · rw [if_pos hn]
        exact ⟨r, rfl, rfl, rfl⟩
      · rw [if_neg hn]
        rw [List.contains_eq_mem, decide_eq_true_eq] at hn
        refine ih _ ?_ ?_
        · rw [List.map_append, List.nodup_append]
          refine ⟨hr, List.nodup_singleton _, ?_⟩
          intro a ha b hb hab
          simp only [List.map_cons, List.map_nil, List.mem_singleton] at hb
          exact hn (hb ▸ hab ▸ ha)
        · simpa [List.append_assoc] using h
    | none =>
      have hf : (c :: cs).filterMap H.key = cs.filterMap H.key := by rw [List.filterMap_cons, hk]
      rw [hf] at h
      simp only
      cases ht : H.test c with
      | none => exact ih r hr h
      | some f => exact ih _ hr h

theorem find_key (H : Hier K) (cs : List K) (w : Word) :
    ((cs.filterMap (uKey H)).find? (fun e => e.1 == w)).map Prod.snd = cs.find? (fun c => H.key c == some w) := by
  induction cs with
  | nil => rfl
  | cons c cs ih =>
    cases hk : H.key c with
    | none => simp [List.filterMap_cons, uKey, hk, List.find?_cons, ← ih]
    | some k =>
      rw [List.filterMap_cons, show uKey H c = some (k, c) by simp [uKey, hk]]
      simp only [List.find?_cons, hk]
      by_cases he : k = w
      · simp [he]
      · have h1 : (k == w) = false := by simpa using he
        have h2 : ((some k : Option Word) == some w) = false := by simpa using he
        simp only [h1, h2]
        exact ih

theorem find_fun (H : Hier K) (cs : List K) (w : Word) :
    ((cs.filterMap (uFun H)).find? (fun e => e.1 w)).map Prod.snd =
      cs.find? (fun c => (H.key c).isNone && (match H.test c with | some f => f w | none => false)) := by
  induction cs with
  | nil => rfl
  | cons c cs ih =>
    rw [List.filterMap_cons, List.find?_cons]
    cases hk : H.key c with
    | some k =>
      rw [show uFun H c = none by simp [uFun, hk]]
      simp only [Option.isNone_some, Bool.false_and]
      exact ih
    | none =>
      cases ht : H.test c with
      | none =>
        rw [show uFun H c = none by simp [uFun, hk, ht]]
        simp only [Option.isNone_none, Bool.and_false]
        exact ih
      | some f =>
        simp only [uFun, hk, ht, Option.map_some, List.find?_cons, Option.isNone_none, Bool.true_and]
        cases f w with
        | true => rfl
        | false => exact ih

theorem find_answer (H : Hier K) (cs : List K) (r : Registry K) (hw : r.wordMap = cs.filterMap (uKey H))
    (hf : r.funList = cs.filterMap (uFun H)) (ex : Bool) (w : Word) : r.find ex w = answer H cs ex w := by
  unfold Registry.find answer
  by_cases hl : ex = true ∨ w.letter ∈ ['G', 'M', 'F', 'S', 'T', 'N', 'O']
  · have hb : ¬ (!ex && !(['G', 'M', 'F', 'S', 'T', 'N', 'O'].contains w.letter)) = true := by
      rw [List.contains_eq_mem]
      rcases hl with h | h <;> simp only [h, decide_true, Bool.not_true, Bool.and_false, Bool.false_and] <;> decide
    rw [if_neg hb, if_pos hl, hw, hf, ← find_key, ← find_fun]
    cases (cs.filterMap (uKey H)).find? (fun e => e.1 == w) <;> rfl
  · have hb : (!ex && !(['G', 'M', 'F', 'S', 'T', 'N', 'O'].contains w.letter)) = true := by
      rw [not_or] at hl
      rw [List.contains_eq_mem]
      simp only [Bool.and_eq_true, Bool.not_eq_true', decide_eq_false_iff_not]
      exact ⟨by simpa using hl.1, hl.2⟩
    rw [if_pos hb, if_neg hl]

theorem build_ok (H : Hier K) (root : K) (r : Registry K) (h : ((H.subclasses r.defs root).filterMap H.key).Nodup) :
    r.build H root = (⟨r.defs, true, (H.subclasses r.defs root).filterMap (uKey H),
      (H.subclasses r.defs root).filterMap (uFun H)⟩, none) := by
  unfold Registry.build
  rw [fill_ok H _ _ (by simpa using h)]
  simp

theorem build_clash (H : Hier K) (root : K) (r : Registry K) (h : ¬ ((H.subclasses r.defs root).filterMap H.key).Nodup) :
    ∃ r', r.build H root = (r', some .runtime) ∧ r'.defs = r.defs ∧ r'.created = r.created := by
  unfold Registry.build
  obtain ⟨r', h1, h2, h3⟩ := fill_clash H (H.subclasses r.defs root) { r with wordMap := [], funList := [] }
    (by simp) (by simpa using h)
  exact ⟨r', h1, h2, h3⟩

/-- Once the maps are there, lookups answer from them. -/
theorem run_created (H : Hier K) (root : K) (cs : List K) (es : List (Registry.Event K)) (hes : NoBuild es)
    (r : Registry K) (hc : r.created = true) (hw : r.wordMap = cs.filterMap (uKey H))
    (hf : r.funList = cs.filterMap (uFun H)) (i : ℕ) (ex : Bool) (w : Word) (hi : es[i]? = some (.look ex w)) :
    (Registry.run H root r es).2[i]? = some (.ok (answer H cs ex w)) := by
  induction es generalizing r i with
  | nil => cases hi
  | cons e es ih =>
    have hes' : NoBuild es := fun h => hes (List.mem_cons_of_mem _ h)
    rw [Registry.run]
    cases e with
    | build => exact absurd List.mem_cons_self hes
    | define c =>
      cases i with
      | zero => cases hi
      | succ i =>
        simp only [List.getElem?_cons_succ] at hi ⊢
        exact ih hes' { r with defs := r.defs ++ [c] } hc hw hf i hi
    | look ex' w' =>
      have hs : Registry.step H root r (.look ex' w') = (r, .ok (answer H cs ex' w')) := by
        rw [Registry.step, if_pos hc, find_answer H cs r hw hf]
      simp only [hs]
      cases i with
      | zero =>
        simp only [List.getElem?_cons_zero, Option.some.injEq, Registry.Event.look.injEq] at hi ⊢
        rw [hi.1, hi.2]
      | succ i =>
        simp only [List.getElem?_cons_succ] at hi ⊢
        exact ih hes' r hc hw hf i hi

theorem allDefs_first (es : List (Registry.Event K)) : ∃ t, allDefs es = firstDefs es ++ t := by
  induction es with
  | nil => exact ⟨[], rfl⟩
  | cons e es ih =>
    cases e with
    | define c =>
      obtain ⟨t, ht⟩ := ih
      exact ⟨t, by simp [allDefs, firstDefs, ht]⟩
    | look ex w => exact ⟨allDefs es, rfl⟩
    | build => exact ⟨allDefs es, rfl⟩

theorem Defined.prefix {H : Hier K} {root : K} {a b : List K} (h : Defined H root (a ++ b)) : Defined H root a where
  nodup := (List.nodup_append.1 h.nodup).1
  fresh := fun hm => h.fresh (List.mem_append_left _ hm)
  top := h.top
  based := by
    intro i d hi
    obtain ⟨hlt, -⟩ := List.getElem?_eq_some_iff.1 hi
    obtain ⟨p, hp, hb⟩ := h.based i d (by rw [List.getElem?_append_left hlt]; exact hi)
    refine ⟨p, hp, hb.imp id ?_⟩
    rintro ⟨j, hj, hpj⟩
    rw [List.getElem?_append_left (by omega)] at hpj
    exact ⟨j, hj, hpj⟩

/-- Every class of a sequence of class statements is below the root. -/
theorem defined_root {H : Hier K} {root : K} {defs : List K} (hD : Defined H root defs) {d : K} (hd : d ∈ defs) :
    ∃ n, Derives H n d root := by
  generalize hm : place root defs d = m
  induction m using Nat.strong_induction_on generalizing d with
  | _ m ih =>
    obtain ⟨i, hi, he⟩ := List.getElem_of_mem hd
    obtain ⟨p, hp, -⟩ := hD.based i d (by rw [List.getElem?_eq_getElem hi, he])
    obtain ⟨hin, hlt⟩ := place_lt hD hd hp
    rcases hin with rfl | hin
    · exact ⟨1, .step hp (.self _)⟩
    · obtain ⟨n, hn⟩ := ih _ (hm ▸ hlt) hin rfl
      exact ⟨n + 1, .step hp hn⟩

theorem mem_subclasses {H : Hier K} {root : K} {defs : List K} (hD : Defined H root defs) (d : K) :
    d ∈ H.subclasses defs root ↔ d = root ∨ d ∈ defs := by
  rw [(C107_each H root defs hD root).2 d]
  exact or_congr_right ⟨fun h => h.1, fun h => ⟨h, defined_root hD h⟩⟩

omit [DecidableEq K] in
theorem before_unique {c : K} {s t a b : List K} (hs : c ∉ s) (ha : c ∉ a) (h : s ++ c :: t = a ++ c :: b) : s = a := by
  induction s generalizing a with
  | nil =>
    cases a with
    | nil => rfl
    | cons x a =>
      simp only [List.nil_append, List.cons_append, List.cons.injEq] at h
      exact absurd (h.1 ▸ List.mem_cons_self) ha
  | cons y s ih =>
    cases a with
    | nil =>
      simp only [List.nil_append, List.cons_append, List.cons.injEq] at h
      exact absurd (h.1 ▸ List.mem_cons_self) hs
    | cons x a =>
      simp only [List.cons_append, List.cons.injEq] at h
      rw [h.1, ih (fun hm => hs (List.mem_cons_of_mem _ hm)) (fun hm => ha (List.mem_cons_of_mem _ hm)) h.2]

/-- Keys of different classes differ. -/
theorem keys_nodup {H : Hier K} {l : List K} (hl : l.Nodup)
    (h : ∀ c ∈ l, ∀ d ∈ l, ∀ k, H.key c = some k → H.key d = some k → c = d) : (l.filterMap H.key).Nodup := by
  induction l with
  | nil => exact List.nodup_nil
  | cons c l ih =>
    have hl' := (List.nodup_cons.1 hl)
    have ih' := ih hl'.2 (fun a ha b hb => h a (List.mem_cons_of_mem _ ha) b (List.mem_cons_of_mem _ hb))
    rw [List.filterMap_cons]
    cases hk : H.key c with
    | none => exact ih'
    | some k =>
      refine List.nodup_cons.2 ⟨fun hm => ?_, ih'⟩
      obtain ⟨d, hd, hdk⟩ := List.mem_filterMap.1 hm
      have := h c List.mem_cons_self d (List.mem_cons_of_mem _ hd) k hk hdk
      exact hl'.1 (this ▸ hd)

theorem keys_clash {H : Hier K} {l : List K} {c d : K} {k : Word} (hc : c ∈ l) (hd : d ∈ l) (hne : c ≠ d)
    (hck : H.key c = some k) (hdk : H.key d = some k) : ¬ (l.filterMap H.key).Nodup := by
  intro hn
  induction l with
  | nil => cases hc
  | cons x l ih =>
    rw [List.filterMap_cons] at hn
    rcases List.mem_cons.1 hc with rfl | hc'
    · rcases List.mem_cons.1 hd with rfl | hd'
      · exact hne rfl
      · rw [hck] at hn
        exact (List.nodup_cons.1 hn).1 (List.mem_filterMap.2 ⟨d, hd', hdk⟩)
    · rcases List.mem_cons.1 hd with rfl | hd'
      · rw [hdk] at hn
        exact (List.nodup_cons.1 hn).1 (List.mem_filterMap.2 ⟨c, hc', hck⟩)
      · refine ih hc' hd' ?_
        cases hk : H.key x with
        | none => rw [hk] at hn; exact hn
        | some _ => rw [hk] at hn; exact (List.nodup_cons.1 hn).2

end Props

open Props

variable {K : Type} [DecidableEq K]

/-- **C108** (what counts is what is defined at the first lookup): if the words of the classes defined before the
first lookup are different, every lookup, the first one and all later ones, answers from these classes; classes
defined later are not found. -/
theorem C108_first (H : Hier K) (root : K) (r : Registry K) (hr : r.created = false) (es : List (Registry.Event K))
    (hes : NoBuild es) (hD : Defined H root (r.defs ++ firstDefs es))
    (hkeys : ∀ c ∈ root :: (r.defs ++ firstDefs es), ∀ d ∈ root :: (r.defs ++ firstDefs es), ∀ k,
      H.key c = some k → H.key d = some k → c = d)
    (i : ℕ) (ex : Bool) (w : Word) (hi : es[i]? = some (.look ex w)) :
    (Registry.run H root r es).2[i]? = some (.ok (answer H (H.subclasses (r.defs ++ firstDefs es) root) ex w)) := by
  induction es generalizing r i with
  | nil => cases hi
  | cons e es ih =>
    have hes' : NoBuild es := fun h => hes (List.mem_cons_of_mem _ h)
    cases e with
    | build => exact absurd List.mem_cons_self hes
    | define c =>
      have e1 : r.defs ++ firstDefs (.define c :: es) = r.defs ++ [c] ++ firstDefs es := by simp [firstDefs]
      rw [e1] at hD hkeys ⊢
      rw [Registry.run]
      cases i with
      | zero => cases hi
      | succ i =>
        simp only [List.getElem?_cons_succ] at hi ⊢
        exact ih { r with defs := r.defs ++ [c] } hr hes' hD hkeys i hi
    | look ex' w' =>
      have e1 : r.defs ++ firstDefs (.look ex' w' :: es) = r.defs := by simp [firstDefs]
      rw [e1] at hD hkeys ⊢
      have hn : ((H.subclasses r.defs root).filterMap H.key).Nodup := by
        refine keys_nodup (C107_each H root r.defs hD root).1 ?_
        intro c hc d hd
        exact hkeys c (List.mem_cons.2 ((mem_subclasses hD c).1 hc)) d (List.mem_cons.2 ((mem_subclasses hD d).1 hd))
      have hb := build_ok H root r hn
      have hs : Registry.step H root r (.look ex' w') = (⟨r.defs, true, (H.subclasses r.defs root).filterMap (uKey H),
          (H.subclasses r.defs root).filterMap (uFun H)⟩, .ok (answer H (H.subclasses r.defs root) ex' w')) := by
        rw [Registry.step, if_neg (by rw [hr]; exact Bool.false_ne_true), hb]
        simp only
        rw [find_answer H (H.subclasses r.defs root) _ rfl rfl]
      rw [Registry.run]
      simp only [hs]
      cases i with
      | zero =>
        simp only [List.getElem?_cons_zero, Option.some.injEq, Registry.Event.look.injEq] at hi ⊢
        rw [hi.1, hi.2]
      | succ i =>
        simp only [List.getElem?_cons_succ] at hi ⊢
        exact run_created H root _ es hes' _ rfl rfl rfl i ex w hi

/-- **C108** (building again): after `build_maps` lookups answer from all the classes defined by then. -/
theorem C108_rebuild (H : Hier K) (root : K) (r : Registry K) (es : List (Registry.Event K)) (hes : NoBuild es)
    (hD : Defined H root r.defs)
    (hkeys : ∀ c ∈ root :: r.defs, ∀ d ∈ root :: r.defs, ∀ k, H.key c = some k → H.key d = some k → c = d)
    (i : ℕ) (ex : Bool) (w : Word) (hi : es[i]? = some (.look ex w)) :
    (Registry.run H root r (.build :: es)).2[i + 1]? = some (.ok (answer H (H.subclasses r.defs root) ex w)) := by
  have hn : ((H.subclasses r.defs root).filterMap H.key).Nodup := by
    refine keys_nodup (C107_each H root r.defs hD root).1 ?_
    intro c hc d hd
    exact hkeys c (List.mem_cons.2 ((mem_subclasses hD c).1 hc)) d (List.mem_cons.2 ((mem_subclasses hD d).1 hd))
  rw [Registry.run]
  simp only [Registry.step, build_ok H root r hn, List.getElem?_cons_succ]
  exact run_created H root _ es hes _ rfl rfl rfl i ex w hi

/-- **C108** (two classes with the same word): if two classes have the same word when the maps are to be built, this
and every later lookup raises RuntimeError, whatever is defined in between. -/
theorem C108_clash (H : Hier K) (root : K) (r : Registry K) (hr : r.created = false) (es : List (Registry.Event K))
    (hD : Defined H root (r.defs ++ allDefs es)) (c d : K) (k : Word) (hc : c ∈ r.defs) (hd : d ∈ r.defs) (hne : c ≠ d)
    (hck : H.key c = some k) (hdk : H.key d = some k) (i : ℕ) (ex : Bool) (w : Word)
    (hi : es[i]? = some (.look ex w)) : (Registry.run H root r es).2[i]? = some (.error .runtime) := by
  induction es generalizing r i with
  | nil => cases hi
  | cons e es ih =>
    have hb : ∀ e' : Registry.Event K, allDefs (e' :: es) = allDefs es →
        ∃ r', r.build H root = (r', some .runtime) ∧ r'.defs = r.defs ∧ r'.created = false := by
      intro e' he'
      have hD' : Defined H root r.defs := hD.prefix
      obtain ⟨r', h1, h2, h3⟩ := build_clash H root r
        (keys_clash ((mem_subclasses hD' c).2 (.inr hc)) ((mem_subclasses hD' d).2 (.inr hd)) hne hck hdk)
      exact ⟨r', h1, h2, h3.trans hr⟩
    rw [Registry.run]
    cases e with
    | define x =>
      cases i with
      | zero => cases hi
      | succ i =>
        simp only [List.getElem?_cons_succ] at hi ⊢
        refine ih { r with defs := r.defs ++ [x] } hr ?_ (List.mem_append_left _ hc) (List.mem_append_left _ hd) i hi
        simpa [allDefs] using hD
    | build =>
      obtain ⟨r', h1, h2, h3⟩ := hb .build rfl
      simp only [Registry.step, h1]
      cases i with
      | zero => cases hi
      | succ i =>
        simp only [List.getElem?_cons_succ] at hi ⊢
        exact ih r' h3 (by rw [h2]; exact hD) (h2 ▸ hc) (h2 ▸ hd) i hi
    | look ex' w' =>
      obtain ⟨r', h1, h2, h3⟩ := hb (.look ex' w') rfl
      have hs : Registry.step H root r (.look ex' w') = (r', .error .runtime) := by
        rw [Registry.step, if_neg (by rw [hr]; exact Bool.false_ne_true), h1]
      simp only [hs]
      cases i with
      | zero => rfl
      | succ i =>
        simp only [List.getElem?_cons_succ] at hi ⊢
        exact ih r' h3 (by rw [h2]; exact hD) (h2 ▸ hc) (h2 ▸ hd) i hi

/-- **C108** (inherited words): a class deriving from one with a word, without a word of its own, has this word as
well (`word_key` is inherited), so that with it every lookup raises RuntimeError. -/
theorem C108_inherited (H : Hier K) (root : K) (r : Registry K) (hr : r.created = false) (es : List (Registry.Event K))
    (hD : Defined H root (r.defs ++ allDefs es)) (c p : K) (hc : c ∈ r.defs) (hp : H.parent c = some p) (k : Word)
    (hk : H.key p = some k) (hroot : p ≠ root) (hinh : H.key c = H.key p) (i : ℕ) (ex : Bool) (w : Word)
    (hi : es[i]? = some (.look ex w)) : (Registry.run H root r es).2[i]? = some (.error .runtime) := by
  have hD' : Defined H root r.defs := hD.prefix
  obtain ⟨hm, hlt⟩ := place_lt hD' hc hp
  refine C108_clash H root r hr es hD c p k hc (hm.resolve_left hroot) ?_ (hinh.trans hk) hk i ex w hi
  rintro rfl
  exact lt_irrefl _ hlt

/-- **C108** (inherited tests): a class without a word that has the test of a class it derives from is never found,
as its base class comes first. -/
theorem C108_hidden (H : Hier K) (root : K) (defs : List K) (hD : Defined H root defs) (c p : K) (n : ℕ)
    (hc : c ∈ defs) (hp : Derives H (n + 1) c p) (hkc : H.key c = none) (hkp : H.key p = none)
    (hinh : H.test c = H.test p) (ex : Bool) (w : Word) : answer H (H.subclasses defs root) ex w ≠ some c := by
  intro h
  unfold answer at h
  split at h
  swap
  · cases h
  split at h
  · rename_i d hf
    cases h
    have := List.find?_some hf
    rw [hkc] at this
    cases this
  · have hs : [p, c].Sublist (H.subclasses defs root) := by
      obtain ⟨k, hk⟩ := defined_root hD hc
      have hpd := (derives_place hD hp hc).1
      obtain ⟨m, hm⟩ : ∃ m, Derives H m p root := by
        rcases hpd with rfl | hpd
        · exact ⟨0, .self _⟩
        · exact defined_root hD hpd
      exact C107_below H root defs hD root p c m n hm hpd hc hp
    have hnd := (C107_each H root defs hD root).1
    obtain ⟨s, t, hst, hsp⟩ : ∃ s t, H.subclasses defs root = s ++ c :: t ∧ p ∈ s := by
      obtain ⟨r1, r2, h1, h2, h3⟩ := List.cons_sublist_iff.1 hs
      have hc2 := List.singleton_sublist.1 h3
      obtain ⟨u, v, rfl⟩ := List.append_of_mem hc2
      exact ⟨r1 ++ u, v, by rw [h1]; simp, List.mem_append_left _ h2⟩
    have hpc := List.find?_some h
    simp only [hkc, Option.isNone_none, Bool.true_and] at hpc
    rw [List.find?_eq_some_iff_append] at h
    obtain ⟨-, as, bs, hab, hno⟩ := h
    have hpa : p ∈ as := by
      rw [hst] at hab hnd
      have hcs : c ∉ s := fun hm => (List.nodup_append.1 hnd).2.2 c hm c List.mem_cons_self rfl
      have hnd' := hab ▸ hnd
      have hcas : c ∉ as := fun hm => (List.nodup_append.1 hnd').2.2 c hm c List.mem_cons_self rfl
      exact before_unique hcs hcas hab ▸ hsp
    have := hno p hpa
    rw [hkp, ← hinh] at this
    simp only [Option.isNone_none, Bool.true_and] at this
    rw [hpc] at this
    cases this

/-! ## Beside the classes of gcodes.py -/

namespace Props

/-- Classes written by a user: their names, base classes, words, tests and descriptions. -/
structure Users (U : Type) where
  name : U → List Char
  parent : U → Cls ⊕ U
  key : U → Option Word
  test : U → Option (Word → Bool) := fun _ => none
  doc : U → Option (List Char) := fun _ => none

/-- The classes of gcodes.py and those of a user. -/
def Users.hier {U : Type} (u : Users U) : Hier (Cls ⊕ U) where
  name := Sum.elim builtin.name u.name
  parent := Sum.elim (fun c => c.parent.map Sum.inl) (fun x => some (u.parent x))
  key := Sum.elim builtin.key u.key
  test := Sum.elim builtin.test u.test
  doc := Sum.elim builtin.doc u.doc

/-- The package as imported: nothing looked up yet. -/
def imported (U : Type) : Registry (Cls ⊕ U) := { defs := Cls.source.map Sum.inl }

/-- The class statements of a user: each class once, deriving from a class of gcodes.py or an earlier one. -/
def Users.Written {U : Type} (u : Users U) (us : List U) : Prop :=
  us.Nodup ∧ ∀ (i : ℕ) (x : U), us[i]? = some x →
    (∃ c : Cls, u.parent x = .inl c) ∨ ∃ (j : ℕ) (y : U), j < i ∧ us[j]? = some y ∧ u.parent x = .inr y

/-- The classes have words of their own, different from each other's and from those of gcodes.py. -/
def Users.Distinct {U : Type} (u : Users U) (us : List U) : Prop :=
  (∀ x ∈ us, ∃ k, u.key x = some k) ∧ (∀ x ∈ us, ∀ y ∈ us, u.key x = u.key y → x = y) ∧
  ∀ x ∈ us, ∀ (c : Cls) (l : Char) (q : ℚ), c.wordKey = some (l, q) → u.key x ≠ some ⟨l, .num q⟩

theorem users_defined {U : Type} (u : Users U) (us : List U) (h : u.Written us) :
    Defined u.hier (.inl .root) (Cls.source.map Sum.inl ++ us.map Sum.inr) where
  nodup := by
    rw [List.nodup_append]
    refine ⟨builtin_defined.nodup.map Sum.inl_injective, h.1.map Sum.inr_injective, ?_⟩
    intro a ha b hb hab
    obtain ⟨c, -, rfl⟩ := List.mem_map.1 ha
    obtain ⟨x, -, rfl⟩ := List.mem_map.1 hb
    cases hab
  fresh := by
    rw [List.mem_append]
    rintro (hm | hm)
    · obtain ⟨c, hc, he⟩ := List.mem_map.1 hm
      cases he
      exact builtin_defined.fresh hc
    · obtain ⟨c, hc, he⟩ := List.mem_map.1 hm
      cases he
  top := rfl
  based := by
    intro i d hi
    by_cases hlt : i < (Cls.source.map (Sum.inl : Cls → Cls ⊕ U)).length
    · rw [List.getElem?_append_left hlt, List.getElem?_map, Option.map_eq_some_iff] at hi
      obtain ⟨c, hc, rfl⟩ := hi
      obtain ⟨p, hp, hb⟩ := builtin_defined.based i c hc
      refine ⟨.inl p, ?_, ?_⟩
      · show c.parent.map Sum.inl = some (Sum.inl p)
        rw [show c.parent = some p from hp]
        rfl
      · rcases hb with rfl | ⟨j, hj, hpj⟩
        · exact .inl rfl
        · refine .inr ⟨j, hj, ?_⟩
          rw [List.getElem?_append_left (by omega), List.getElem?_map, hpj]
          rfl
    · rw [not_lt] at hlt
      rw [List.getElem?_append_right hlt, List.getElem?_map, Option.map_eq_some_iff] at hi
      obtain ⟨x, hx, rfl⟩ := hi
      refine ⟨u.parent x, rfl, ?_⟩
      rcases h.2 _ x hx with ⟨c, hc⟩ | ⟨j, y, hj, hy, hp⟩
      · rw [hc]
        by_cases hr : c = .root
        · exact .inl (by rw [hr])
        · right
          have hcs : c ∈ Cls.source := by
            have := Cls.forall_of_all (p := fun c => decide (c = .root) || Cls.source.contains c) (by decide +kernel) c
            simp only [Bool.or_eq_true, decide_eq_true_eq, List.contains_eq_mem] at this
            exact this.resolve_left hr
          obtain ⟨j, hj, he⟩ := List.getElem_of_mem hcs
          refine ⟨j, by rw [List.length_map] at hlt; omega, ?_⟩
          rw [List.getElem?_append_left (by rw [List.length_map]; exact hj), List.getElem?_map,
            List.getElem?_eq_getElem hj, he]
          rfl
      · right
        refine ⟨(Cls.source.map (Sum.inl : Cls → Cls ⊕ U)).length + j, by omega, ?_⟩
        rw [List.getElem?_append_right (by omega), List.getElem?_map, hp]
        rw [show (Cls.source.map (Sum.inl : Cls → Cls ⊕ U)).length + j - (Cls.source.map (Sum.inl : Cls → Cls ⊕ U)).length = j
          by omega, hy]
        rfl

theorem builtin_key {c : Cls} {w : Word} : builtin.key c = some w ↔ ∃ l q, c.wordKey = some (l, q) ∧ w = ⟨l, .num q⟩ := by
  show c.wordKey.map keyWord = some w ↔ _
  rw [Option.map_eq_some_iff]
  constructor
  · rintro ⟨⟨l, q⟩, hk, rfl⟩
    exact ⟨l, q, hk, rfl⟩
  · rintro ⟨l, q, hk, rfl⟩
    exact ⟨(l, q), hk, rfl⟩

theorem builtin_takes {c : Cls} {w : Word} : Takes builtin c w ↔ Claims c w := by
  unfold Takes Claims
  rw [builtin_key]
  refine or_congr Iff.rfl (and_congr ?_ ?_)
  · show c.wordKey.map keyWord = none ↔ _
    rw [Option.map_eq_none_iff]
  · show (∃ f, c.matcher.map Matcher.test = some f ∧ f w = true) ↔ _
    constructor
    · rintro ⟨f, hf, ht⟩
      obtain ⟨g, hg, rfl⟩ := Option.map_eq_some_iff.1 hf
      exact ⟨g, hg, ht⟩
    · rintro ⟨g, hg, ht⟩
      exact ⟨g.test, by rw [hg]; rfl, ht⟩

/-- Where at most one class takes a word, it is the answer. -/
theorem answer_iff {K : Type} [DecidableEq K] (H : Hier K) (cs : List K) (ex : Bool) (w : Word)
    (hu : ∀ c ∈ cs, ∀ d ∈ cs, Takes H c w → Takes H d w → c = d) (c : K) : answer H cs ex w = some c ↔
      (ex = true ∨ w.letter ∈ ['G', 'M', 'F', 'S', 'T', 'N', 'O']) ∧ c ∈ cs ∧ Takes H c w := by
  unfold answer
  by_cases hl : ex = true ∨ w.letter ∈ ['G', 'M', 'F', 'S', 'T', 'N', 'O']
  swap
  · rw [if_neg hl]
    exact ⟨fun h => (nomatch h), fun h => absurd h.1 hl⟩
  rw [if_pos hl]
  simp only [hl, true_and]
  cases h1 : cs.find? (fun c => H.key c == some w) with
  | some d =>
    have hd := List.mem_of_find?_eq_some h1
    have hk : H.key d = some w := by simpa using List.find?_some h1
    simp only [Option.some.injEq]
    exact ⟨fun h => h ▸ ⟨hd, .inl hk⟩, fun h => hu d hd c h.1 (.inl hk) h.2⟩
  | none =>
    simp only
    rw [List.find?_eq_none] at h1
    have htk : ∀ d ∈ cs, (((H.key d).isNone && (match H.test d with | some f => f w | none => false)) = true ↔
        Takes H d w) := by
      intro d hd
      have hnk : H.key d ≠ some w := by simpa using h1 d hd
      unfold Takes
      cases hk : H.key d with
      | some k =>
        rw [hk] at hnk
        simpa using hnk
      | none => cases ht : H.test d <;> simp
    constructor
    · intro h
      have hc := List.mem_of_find?_eq_some h
      have hh := List.find?_some h
      exact ⟨hc, (htk c hc).1 hh⟩
    · rintro ⟨hc, ht⟩
      cases h2 : cs.find? (fun c => (H.key c).isNone && (match H.test c with | some f => f w | none => false)) with
      | none =>
        rw [List.find?_eq_none] at h2
        exact absurd ((htk c hc).2 ht) (h2 c hc)
      | some d =>
        have hd := List.mem_of_find?_eq_some h2
        have hh := List.find?_some h2
        rw [hu d hd c hc ((htk d hd).1 hh) ht]

theorem users_keys {U : Type} [DecidableEq U] (u : Users U) (us : List U) (hd : u.Distinct us) :
    ∀ c ∈ (.inl .root :: (Cls.source.map Sum.inl ++ us.map Sum.inr) : List (Cls ⊕ U)),
      ∀ d ∈ (.inl .root :: (Cls.source.map Sum.inl ++ us.map Sum.inr) : List (Cls ⊕ U)), ∀ k,
      u.hier.key c = some k → u.hier.key d = some k → c = d := by
  have hin : ∀ x : U, (.inr x : Cls ⊕ U) ∈ (.inl .root :: (Cls.source.map Sum.inl ++ us.map Sum.inr) : List (Cls ⊕ U)) →
      x ∈ us := by
    intro x hx
    simpa using hx
  intro c hc d hd' k hck hdk
  cases c with
  | inl c =>
    cases d with
    | inl d =>
      obtain ⟨l, q, h1, rfl⟩ := builtin_key.1 hck
      obtain ⟨l', q', h2, h3⟩ := builtin_key.1 hdk
      cases h3
      rw [keys_unique c d _ h1 h2]
    | inr y =>
      obtain ⟨l, q, h1, rfl⟩ := builtin_key.1 hck
      exact absurd hdk (hd.2.2 y (hin y hd') c l q h1)
  | inr x =>
    cases d with
    | inl d =>
      obtain ⟨l, q, h1, rfl⟩ := builtin_key.1 hdk
      exact absurd hck (hd.2.2 x (hin x hc) d l q h1)
    | inr y =>
      have h1 : u.key x = some k := hck
      have h2 : u.key y = some k := hdk
      rw [hd.2.1 x (hin x hc) y (hin y hd') (h1.trans h2.symm)]

end Props

/-- **C108** (the lookup of the other properties): without classes of a user, words are looked up as in the rest of
the model. -/
theorem C108_builtin (w : Word) : answer builtin (builtin.subclasses Cls.source .root) false w = wordClass w := by
  have hu : ∀ c ∈ builtin.subclasses Cls.source .root, ∀ d ∈ builtin.subclasses Cls.source .root,
      Takes builtin c w → Takes builtin d w → c = d :=
    fun c _ d _ hc hd => C15_unique w c d (builtin_takes.1 hc) (builtin_takes.1 hd)
  refine Option.ext fun c => ?_
  show _ ↔ wordClassE false w = some c
  rw [answer_iff _ _ _ _ hu, C15_lookup, builtin_takes, C107_table]
  exact and_congr_right fun _ => ⟨fun h => h.2, fun h => ⟨Cls.mem_all c, h⟩⟩

/-- **C108** (words of user classes): classes with words of their own, defined before the first lookup, are found for
their words (with one of the letters G M F S T N O), in all lookups. -/
theorem C108_own {U : Type} [DecidableEq U] (u : Users U) (us : List U) (hw : u.Written us) (hd : u.Distinct us)
    (es : List (Registry.Event (Cls ⊕ U))) (hes : NoBuild es) (hfirst : firstDefs es = us.map Sum.inr)
    (i : ℕ) (w : Word) (hi : es[i]? = some (.look false w)) (x : U) (hx : x ∈ us) (hk : u.key x = some w)
    (hl : w.letter ∈ ['G', 'M', 'F', 'S', 'T', 'N', 'O']) :
    (Registry.run u.hier (.inl .root) (imported U) es).2[i]? = some (.ok (some (.inr x))) := by
  have hD := users_defined u us hw
  rw [C108_first u.hier (.inl .root) (imported U) rfl es hes (by rw [hfirst]; exact hD)
    (by rw [hfirst]; exact users_keys u us hd) i false w hi, hfirst]
  have hm : (.inr x : Cls ⊕ U) ∈ u.hier.subclasses (Cls.source.map Sum.inl ++ us.map Sum.inr) (.inl .root) :=
    (mem_subclasses hD _).2 (.inr (by simpa using hx))
  show some (Except.ok (answer u.hier (u.hier.subclasses (Cls.source.map Sum.inl ++ us.map Sum.inr) (.inl .root)) false w)) = _
  unfold answer
  rw [if_pos (.inr hl)]
  cases hf : (u.hier.subclasses (Cls.source.map Sum.inl ++ us.map Sum.inr) (.inl .root)).find?
      (fun c => u.hier.key c == some w) with
  | none =>
    rw [List.find?_eq_none] at hf
    have := hf _ hm
    rw [show u.hier.key (.inr x) = some w from hk] at this
    simp at this
  | some d =>
    have hdm := List.mem_of_find?_eq_some hf
    have hdk : u.hier.key d = some w := by simpa using List.find?_some hf
    have := users_keys u us hd d (List.mem_cons.2 ((mem_subclasses hD d).1 hdm)) (.inr x)
      (List.mem_cons.2 ((mem_subclasses hD _).1 hm)) w hdk hk
    rw [this]

/-- **C108** (other words): all other words are found as without the user's classes. -/
theorem C108_others {U : Type} [DecidableEq U] (u : Users U) (us : List U) (hw : u.Written us) (hd : u.Distinct us)
    (es : List (Registry.Event (Cls ⊕ U))) (hes : NoBuild es) (hfirst : firstDefs es = us.map Sum.inr)
    (i : ℕ) (w : Word) (hi : es[i]? = some (.look false w)) (hother : ∀ x ∈ us, u.key x ≠ some w) :
    (Registry.run u.hier (.inl .root) (imported U) es).2[i]? = some (.ok ((wordClass w).map Sum.inl)) := by
  have hD := users_defined u us hw
  rw [C108_first u.hier (.inl .root) (imported U) rfl es hes (by rw [hfirst]; exact hD)
    (by rw [hfirst]; exact users_keys u us hd) i false w hi, hfirst]
  show some (Except.ok (answer u.hier (u.hier.subclasses (Cls.source.map Sum.inl ++ us.map Sum.inr) (.inl .root)) false w)) = _
  congr 2
  have hno : ∀ x : U, (.inr x : Cls ⊕ U) ∈ u.hier.subclasses (Cls.source.map Sum.inl ++ us.map Sum.inr) (.inl .root) →
      ¬ Takes u.hier (.inr x) w := by
    intro x hx ht
    have hxu : x ∈ us := by simpa using (mem_subclasses hD _).1 hx
    rcases ht with hk | ⟨hk, -⟩
    · exact hother x hxu hk
    · obtain ⟨k, hk'⟩ := hd.1 x hxu
      have : u.key x = none := hk
      rw [hk'] at this
      cases this
  have hinl : ∀ c : Cls, Takes u.hier (.inl c) w ↔ Claims c w := fun c => builtin_takes
  have hu : ∀ c ∈ u.hier.subclasses (Cls.source.map Sum.inl ++ us.map Sum.inr) (.inl .root),
      ∀ d ∈ u.hier.subclasses (Cls.source.map Sum.inl ++ us.map Sum.inr) (.inl .root),
      Takes u.hier c w → Takes u.hier d w → c = d := by
    intro c hc d hd hct hdt
    cases c with
    | inr x => exact absurd hct (hno x hc)
    | inl c =>
      cases d with
      | inr y => exact absurd hdt (hno y hd)
      | inl d => rw [C15_unique w c d ((hinl c).1 hct) ((hinl d).1 hdt)]
  refine Option.ext fun c => ?_
  rw [answer_iff _ _ _ _ hu]
  cases c with
  | inr x =>
    constructor
    · rintro ⟨-, hm, ht⟩
      exact absurd ht (hno x hm)
    · intro h
      obtain ⟨c, -, he⟩ := Option.map_eq_some_iff.1 h
      cases he
  | inl c =>
    rw [hinl, Option.map_eq_some_iff]
    constructor
    · rintro ⟨hl, -, ht⟩
      exact ⟨c, (C15_lookup false w c).2 ⟨hl, ht⟩, rfl⟩
    · rintro ⟨c', hc', he⟩
      cases he
      have := (C15_lookup false w c).1 hc'
      refine ⟨this.1, (mem_subclasses hD _).2 ?_, this.2⟩
      by_cases hr : c = .root
      · exact .inl (by rw [hr])
      · refine .inr (List.mem_append_left _ (List.mem_map_of_mem ?_))
        have := Cls.forall_of_all (p := fun c => decide (c = .root) || Cls.source.contains c) (by decide +kernel) c
        simp only [Bool.or_eq_true, decide_eq_true_eq, List.contains_eq_mem] at this
        exact this.resolve_left hr

/-! ## Instances -/

namespace Props

/-- Two classes: M101 and, below it, G38.3. -/
def twoUsers : Users Bool where
  name := fun b => if b then chars! "GCodeMine" else chars! "GCodeYours"
  parent := fun b => if b then .inl .userDefined else .inr true
  key := fun b => some (if b then ⟨'M', .num 101⟩ else ⟨'G', .num (383 / 10)⟩)

theorem twoUsers_written : twoUsers.Written [true, false] := by
  refine ⟨by decide, ?_⟩
  intro i x hi
  match i with
  | 0 => cases hi; exact .inl ⟨_, rfl⟩
  | 1 => cases hi; exact .inr ⟨0, true, by decide, rfl, rfl⟩
  | n + 2 => cases hi

theorem twoUsers_distinct : twoUsers.Distinct [true, false] := by
  refine ⟨fun x _ => ⟨_, rfl⟩, by decide +kernel, ?_⟩
  intro x _ c l q hk h
  have := Cls.forall_of_all (p := fun c => decide (c.wordKey ≠ some ('M', 101) ∧ c.wordKey ≠ some ('G', 383 / 10)))
    (by decide +kernel) c
  rw [decide_eq_true_eq, hk] at this
  cases x
  · simp only [twoUsers, Bool.false_eq_true, if_false, Option.some.injEq, Word.mk.injEq, Val.num.injEq] at h
    rw [← h.1, ← h.2] at this
    exact this.2 rfl
  · simp only [twoUsers, if_true, Option.some.injEq, Word.mk.injEq, Val.num.injEq] at h
    rw [← h.1, ← h.2] at this
    exact this.1 rfl

/-- Definitions, then lookups of M101, G38.3 (which a class of gcodes.py accepts), G1 and G38.2. -/
def twoEvents : List (Registry.Event (Cls ⊕ Bool)) :=
  [.define (.inr true), .define (.inr false), .look false ⟨'M', .num 101⟩, .look false ⟨'G', .num (383 / 10)⟩,
   .look false ⟨'G', .num 1⟩, .look false ⟨'G', .num (382 / 10)⟩]

theorem twoEvents_noBuild : NoBuild twoEvents := by simp [NoBuild, twoEvents]

end Props

example : (Registry.run twoUsers.hier (.inl .root) (imported Bool) twoEvents).2[3]? = some (.ok (some (.inr false))) :=
  C108_own twoUsers [true, false] twoUsers_written twoUsers_distinct twoEvents twoEvents_noBuild rfl 3 _ rfl false
    (by decide) rfl (by decide)

example : (Registry.run twoUsers.hier (.inl .root) (imported Bool) twoEvents).2[5]? = some (.ok (some (.inl .straightProbe))) := by
  rw [C108_others twoUsers [true, false] twoUsers_written twoUsers_distinct twoEvents twoEvents_noBuild rfl 5
    ⟨'G', .num (382 / 10)⟩ rfl (by decide +kernel)]
  decide +kernel

/-- Defined after a lookup of G1, the class of M101 is not found. -/
example : (Registry.run twoUsers.hier (.inl .root) (imported Bool)
    [.look false ⟨'G', .num 1⟩, .define (.inr true), .look false ⟨'M', .num 101⟩]).2[2]? = some (.ok none) := by
  rw [C108_others twoUsers [] ⟨List.nodup_nil, fun i x hi => by cases hi⟩
    ⟨fun _ h => (nomatch h), fun _ h => (nomatch h), fun _ h => (nomatch h)⟩ _ (by simp [NoBuild]) rfl 2
    ⟨'M', .num 101⟩ rfl (fun _ h => (nomatch h))]
  decide +kernel

/-- With `build_maps` it is. -/
example : (Registry.run twoUsers.hier (.inl .root) { imported Bool with defs := Cls.source.map Sum.inl ++ [.inr true] }
    [.build, .look false ⟨'M', .num 101⟩]).2[1]? = some (.ok (answer twoUsers.hier
      (twoUsers.hier.subclasses (Cls.source.map Sum.inl ++ [.inr true]) (.inl .root)) false ⟨'M', .num 101⟩)) :=
  C108_rebuild twoUsers.hier (.inl .root) { imported Bool with defs := Cls.source.map Sum.inl ++ [.inr true] }
    [.look false ⟨'M', .num 101⟩] (by simp [NoBuild])
    (Defined.prefix (a := Cls.source.map Sum.inl ++ [.inr true]) (b := [.inr false])
      (by simpa [List.append_assoc] using users_defined twoUsers [true, false] twoUsers_written))
    (fun c hc d hd => users_keys twoUsers [true, false] twoUsers_distinct c (by
      rcases List.mem_cons.1 hc with h | h
      · exact h ▸ List.mem_cons_self
      · refine List.mem_cons_of_mem _ ?_
        rcases List.mem_append.1 h with h | h
        · exact List.mem_append_left _ h
        · exact List.mem_append_right _ (by simpa using .inl (List.mem_singleton.1 h))) d (by
      rcases List.mem_cons.1 hd with h | h
      · exact h ▸ List.mem_cons_self
      · refine List.mem_cons_of_mem _ ?_
        rcases List.mem_append.1 h with h | h
        · exact List.mem_append_left _ h
        · exact List.mem_append_right _ (by simpa using .inl (List.mem_singleton.1 h))))
    0 false _ rfl

namespace Props

/-- A class deriving from GCodeLinearMove that inherits its word, and one deriving from GCodeFeedRate that inherits
its test. -/
def heirs : Users Bool where
  name := fun b => if b then chars! "MyLinearMove" else chars! "MyFeedRate"
  parent := fun b => if b then .inl .linearMove else .inl .feedRate
  key := fun b => if b then some ⟨'G', .num 1⟩ else none
  test := fun b => if b then none else some (Matcher.test (.letter 'F'))

theorem heirs_written (b : Bool) : heirs.Written [b] := by
  refine ⟨List.nodup_singleton _, ?_⟩
  intro i x hi
  match i with
  | 0 => cases hi; cases b <;> exact .inl ⟨_, rfl⟩
  | n + 1 => cases hi

end Props

/-- With a class deriving from GCodeLinearMove nothing can be looked up any more: here X1, then G1. -/
example (i : ℕ) (w : Word) (hi : ([.look false ⟨'X', .num 1⟩, .look false ⟨'G', .num 1⟩] :
      List (Registry.Event (Cls ⊕ Bool)))[i]? = some (.look false w)) :
    (Registry.run heirs.hier (.inl .root) { imported Bool with defs := Cls.source.map Sum.inl ++ [.inr true] }
      [.look false ⟨'X', .num 1⟩, .look false ⟨'G', .num 1⟩]).2[i]? = some (.error .runtime) :=
  C108_inherited heirs.hier (.inl .root) _ rfl _
    (by simpa [allDefs] using users_defined heirs [true] (heirs_written true)) (.inr true) (.inl .linearMove)
    (by simp) rfl ⟨'G', .num 1⟩ (by decide +kernel) (by simp) (by decide +kernel) i false w hi

example (w : Word) : answer heirs.hier (heirs.hier.subclasses (Cls.source.map Sum.inl ++ [.inr false]) (.inl .root)) false w ≠
    some (.inr false) :=
  C108_hidden heirs.hier (.inl .root) _ (by simpa using users_defined heirs [false] (heirs_written false)) (.inr false)
    (.inl .feedRate) 0 (by simp) (.step (p := .inl .feedRate) rfl (.self _)) rfl (by decide +kernel)
    (congrArg some rfl : heirs.hier.test (.inr false) = some (Matcher.test (.letter 'F'))) false w

end Pygcode
