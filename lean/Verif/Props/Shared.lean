import Verif.Lemmas.Heap
import Verif.Props.Modes

/-!
# Property C81: changing a gcode does not change the machine that executed it

The rest of the model treats gcodes as values.  Here they are objects (`Verif.Model.Heap`).  As long as a
program assigns no modal parameter of a gcode, objects behave as values; assigning a modal parameter of a
gcode that the machine has executed changes the machine.
-/

namespace Pygcode.Props
open Pygcode Pygcode.Machine

/-! ## Where the words are -/

theorem view_congr {h h' : Store} {o : Obj} (he : ∀ r ∈ o.word :: o.params, h'.cell r = h.cell r) :
    o.view h' = o.view h := by
  unfold Obj.view
  rw [he _ List.mem_cons_self, List.map_congr_left (fun r hr => he r (List.mem_cons_of_mem _ hr))]

theorem views_congr {h h' : Store} {os : List Obj}
    (he : ∀ o ∈ os, ∀ r ∈ o.word :: o.params, h'.cell r = h.cell r) :
    os.map (Obj.view h') = os.map (Obj.view h) :=
  List.map_congr_left fun o ho => view_congr (he o ho)

theorem machine_congr {h h' : Store} {m : HMachine}
    (he : ∀ k o, m.slots k = some o → ∀ r ∈ o.word :: o.params, h'.cell r = h.cell r) :
    m.view h' = m.view h := by
  unfold HMachine.view
  simp only [Machine.mk.injEq, true_and, and_true]
  funext k
  cases hk : m.slots k with
  | none => rfl
  | some o => exact congrArg some (view_congr (he k o hk))

/-- All references of the mode satisfy `P`. -/
def SlotRefs (P : ℕ → Prop) (m : HMachine) : Prop :=
  ∀ k o, m.slots k = some o → ∀ r ∈ o.word :: o.params, P r

/-- The references that go into the mode when the gcode is executed satisfy `P`. -/
def CopyRefs (P : ℕ → Prop) (h : Store) (o : Obj) : Prop :=
  P o.word ∧ ∀ r ∈ o.params, (h.cell r).letter ∈ o.cls.modalParams → P r

theorem andThen_refs {P : ℕ → Prop} {a : HRes} {f : HMachine → HRes} (ha : SlotRefs P a.1)
    (hf : ∀ m, SlotRefs P m → SlotRefs P (f m).1) : SlotRefs P (HMachine.andThen a f).1 := by
  obtain ⟨m, e⟩ := a
  cases e with
  | none => exact hf m ha
  | some e => exact ha

theorem setMode_refs {P : ℕ → Prop} {h : Store} {m : HMachine} {o : Obj} (hm : SlotRefs P m)
    (ho : CopyRefs P h o) : SlotRefs P (m.setMode h o).1 := by
  unfold HMachine.setMode
  apply andThen_refs
  · cases o.cls.group with
    | none => exact hm
    | some k =>
      simp only
      cases hc : o.modalCopy h with
      | error e => exact hm
      | ok c =>
        intro j q hq r hr
        simp only at hq
        by_cases hj : j = k
        · subst hj
          rw [Function.update_self] at hq
          obtain rfl := Option.some.inj hq
          rw [Obj.make_refs hc] at hr
          rcases List.mem_cons.1 hr with rfl | hr
          · exact ho.1
          · obtain ⟨h1, h2⟩ := List.mem_filter.1 hr
            exact ho.2 r h1 (by simpa using h2)
        · rw [Function.update_of_ne hj] at hq
          exact hm j q hq r hr
  · intro m hm
    split
    · exact hm
    · exact hm

theorem effect_refs {P : ℕ → Prop} {h : Store} {m : HMachine} {o : Obj} (hm : SlotRefs P m) :
    SlotRefs P (m.effect h o).1 := by
  intro j q hq
  unfold HMachine.effect at hq
  simp only at hq
  split at hq
  · by_cases hj : j = 1
    · subst hj; rw [Function.update_self] at hq; cases hq
    · rw [Function.update_of_ne hj] at hq; exact hm j q hq
  · exact hm j q hq

theorem processAll_refs {P : ℕ → Prop} {h : Store} {os : List Obj} {m : HMachine} (hm : SlotRefs P m)
    (ho : ∀ o ∈ os, CopyRefs P h o) : SlotRefs P (m.processAll h os).1 := by
  induction os generalizing m with
  | nil => exact hm
  | cons o os ih =>
    apply andThen_refs
    · exact andThen_refs (setMode_refs hm (ho o List.mem_cons_self)) (fun m hm => effect_refs hm)
    · intro m hm; exact ih hm (fun q hq => ho q (List.mem_cons_of_mem _ hq))

theorem processGcodes_refs {P : ℕ → Prop} {h : Store} {os : List Obj} {mp : List ℕ} {m : HMachine}
    (hm : SlotRefs P m) (ho : ∀ o ∈ os, CopyRefs P h o) (hp : ∀ r ∈ mp, P r) :
    SlotRefs P (m.processGcodes h os mp).1 := by
  unfold HMachine.processGcodes
  cases hg : m.modalGcode h mp with
  | error e => exact hm
  | ok og =>
    apply processAll_refs hm
    intro o h1
    have h1 : o ∈ os ++ og.toList := (List.mem_insertionSort _).1 h1
    rcases List.mem_append.1 h1 with h1 | h1
    · exact ho o h1
    · cases og with
      | none => simp at h1
      | some g =>
        obtain rfl : o = g := by simpa using h1
        unfold HMachine.modalGcode at hg
        split at hg
        · cases hg
        · cases hs : m.slots 1 with
          | none => rw [hs] at hg; simp only at hg; split at hg <;> cases hg
          | some g =>
            rw [hs] at hg
            simp only at hg
            cases hw : Obj.words2gcodes h (g.word :: mp.foldl (HMachine.overrideOne h) g.params) with
            | error e => rw [hw] at hg; cases hg
            | ok p =>
              obtain ⟨gs, un⟩ := p
              rw [hw] at hg
              simp only at hg
              split at hg
              · cases hg
              · have hr := (Obj.words2gcodes_refs hw).1
                split at hg
                · cases hg
                · rename_i g'
                  obtain rfl := Option.some.inj (Except.ok.inj hg)
                  have key : ∀ r ∈ g'.word :: g'.params, P r := by
                    intro r h2
                    rcases List.mem_cons.1 (hr g' List.mem_cons_self r h2) with rfl | h3
                    · exact hm 1 g hs _ List.mem_cons_self
                    · rcases override_refs h mp g.params r h3 with h3 | h3
                      · exact hm 1 g hs _ (List.mem_cons_of_mem _ h3)
                      · exact hp r h3
                  exact ⟨key _ List.mem_cons_self, fun r h2 _ => key r (List.mem_cons_of_mem _ h2)⟩
                · cases hg

/-! ## Objects and values side by side -/

/-- A reference the mode may have: if it is a parameter of a gcode of the program, then a modal one. -/
def RefOK (s : Session) (r : ℕ) : Prop :=
  r < s.store.next ∧ ∀ o ∈ s.objs, r ∈ o.params → (s.store.cell r).letter ∈ o.cls.modalParams

/-- The session with objects is as the one with values, and words are shared only as stated. -/
structure Agree (s : Session) (v : VSession) : Prop where
  objs : s.objs.map (Obj.view s.store) = v.objs
  mach : s.mach.view s.store = v.mach
  lt : ∀ o ∈ s.objs, ∀ r ∈ o.word :: o.params, r < s.store.next
  own : ∀ (i j : ℕ) (o o' : Obj) (r : ℕ), s.objs[i]? = some o → s.objs[j]? = some o' →
    r ∈ o.params → r ∈ o'.params → i = j
  word : ∀ o ∈ s.objs, ∀ o' ∈ s.objs, o.word ∉ o'.params
  nodup : ∀ o ∈ s.objs, (o.params.map (fun r => (s.store.cell r).letter)).Nodup
  slots : SlotRefs (RefOK s) s.mach

theorem Agree.copyRefs {s : Session} {v : VSession} (ha : Agree s v) {o : Obj} (ho : o ∈ s.objs) :
    CopyRefs (RefOK s) s.store o := by
  refine ⟨⟨ha.lt o ho _ List.mem_cons_self, fun o' ho' h => absurd h (ha.word o ho o' ho')⟩, ?_⟩
  intro r hr hl
  refine ⟨ha.lt o ho _ (List.mem_cons_of_mem _ hr), fun o' ho' h => ?_⟩
  obtain ⟨i, hi⟩ := List.mem_iff_getElem?.1 ho
  obtain ⟨j, hj⟩ := List.mem_iff_getElem?.1 ho'
  obtain rfl := ha.own i j o o' r hi hj hr h
  rw [hi] at hj
  obtain rfl := Option.some.inj hj
  exact hl

/-- A use that assigns no modal parameter. -/
def FreeUse (v : VSession) : GUse → Prop
  | .assign i l _ => ∀ g, v.objs[i]? = some g → l ∉ g.cls.modalParams
  | _ => True

/-- A program that assigns no modal parameter. -/
def Free : VSession → List GUse → Prop
  | _, [] => True
  | v, u :: us => FreeUse v u ∧ Free (v.step u).1 us

/-- Words are added, and what there was stays. -/
theorem Agree.alloc {s : Session} {v : VSession} (ha : Agree s v) (ws : List Word) :
    Agree ⟨(s.store.alloc ws).1, s.objs, s.mach⟩ v := by
  have old : ∀ r, r < s.store.next → (s.store.alloc ws).1.cell r = s.store.cell r :=
    fun r hr => Store.alloc_old _ _ hr
  have hn := Store.alloc_next s.store ws
  refine ⟨?_, ?_, ?_, ha.own, ha.word, ?_, ?_⟩
  · exact (views_congr (fun o ho r hr => old r (ha.lt o ho r hr))).trans ha.objs
  · exact (machine_congr (fun k o hk r hr => old r (ha.slots k o hk r hr).1)).trans ha.mach
  · intro o ho r hr; exact lt_of_lt_of_le (ha.lt o ho r hr) hn
  · intro o ho
    have := ha.nodup o ho
    rwa [List.map_congr_left (g := fun r => (s.store.cell r).letter)
      (fun r hr => by rw [old r (ha.lt o ho r (List.mem_cons_of_mem _ hr))])]
  · intro k o hk r hr
    obtain ⟨h1, h2⟩ := ha.slots k o hk r hr
    exact ⟨lt_of_lt_of_le h1 hn, fun o' ho' h => by
      show ((s.store.alloc ws).1.cell r).letter ∈ _
      rw [old r h1]; exact h2 o' ho' h⟩

theorem Agree.step_make {s : Session} {v : VSession} (ha : Agree s v) (c : Cls) (w : Word) (ps : List Word) :
    Agree (s.step (.make c w ps)).1 (v.step (.make c w ps)).1 ∧
      (s.step (.make c w ps)).2 = (v.step (.make c w ps)).2 := by
  have ha' := ha.alloc (w :: ps)
  have hnew := Store.alloc_new s.store (w :: ps)
  have hmem : ∀ r ∈ (s.store.alloc (w :: ps)).2, s.store.next ≤ r ∧ r < (s.store.alloc (w :: ps)).1.next :=
    fun r hr => Store.alloc_mem _ _ hr
  have hsplit : (s.store.alloc (w :: ps)).2 = s.store.next :: (s.store.alloc (w :: ps)).2.tail := by
    simp [Store.alloc, List.range_succ_eq_map]
  have hnd : (s.store.alloc (w :: ps)).2.Nodup := by
    simp only [Store.alloc]
    exact List.Nodup.map (fun a b h => by simpa using h) List.nodup_range
  generalize (s.store.alloc (w :: ps)).2.tail = rs at hsplit
  rw [hsplit] at hnew hmem hnd
  rw [List.map_cons, List.cons.injEq] at hnew
  have hsame := Obj.make_same (s.store.alloc (w :: ps)).1 c s.store.next rs
  rw [hnew.1, hnew.2] at hsame
  have htail : (s.store.alloc (w :: ps)).2.tail = rs := by rw [hsplit]; rfl
  unfold Session.step VSession.step
  simp only [htail]
  rcases exSame_cases hsame with ⟨e, h1, h2⟩ | ⟨o, h1, h2⟩
  · rw [h1, h2]; exact ⟨ha', rfl⟩
  · rw [h1, h2]
    refine ⟨?_, rfl⟩
    obtain rfl := Obj.make_refs h1
    simp only
    have fresh : ∀ o ∈ s.objs, ∀ r ∈ s.store.next :: rs, r ∉ o.params := by
      intro o ho r hr h
      have := ha.lt o ho r (List.mem_cons_of_mem _ h)
      have := (hmem r hr).1
      omega
    refine ⟨?_, ha'.mach, ?_, ?_, ?_, ?_, ?_⟩
    · simp only [List.map_append, List.map_cons, List.map_nil]
      rw [ha'.objs]
    · intro o ho r hr
      rcases List.mem_append.1 ho with ho | ho
      · exact ha'.lt o ho r hr
      · rw [List.mem_singleton.1 ho] at hr
        exact (hmem r hr).2
    · intro i j o o' r hi hj hr hr'
      simp only at hi hj
      rw [List.getElem?_append] at hi hj
      split at hi
      · split at hj
        · exact ha.own i j o o' r hi hj hr hr'
        · obtain ⟨_, h5⟩ := List.getElem?_eq_some_iff.1 hj
          rw [← h5, List.getElem_singleton] at hr'
          exact absurd hr (fresh o (List.mem_of_getElem? hi) r (List.mem_cons_of_mem _ hr'))
      · split at hj
        · obtain ⟨_, h5⟩ := List.getElem?_eq_some_iff.1 hi
          rw [← h5, List.getElem_singleton] at hr
          exact absurd hr' (fresh o' (List.mem_of_getElem? hj) r (List.mem_cons_of_mem _ hr))
        · obtain ⟨h3, -⟩ := List.getElem?_eq_some_iff.1 hi
          obtain ⟨h4, -⟩ := List.getElem?_eq_some_iff.1 hj
          simp only [List.length_singleton] at h3 h4
          omega
    · intro o ho o' ho'
      rcases List.mem_append.1 ho with ho | ho
      · rcases List.mem_append.1 ho' with ho' | ho'
        · exact ha.word o ho o' ho'
        · rw [List.mem_singleton.1 ho']
          intro h
          have h1 := (hmem _ (List.mem_cons_of_mem _ h)).1
          have h2 := ha.lt o ho _ List.mem_cons_self
          omega
      · rw [List.mem_singleton.1 ho]
        rcases List.mem_append.1 ho' with ho' | ho'
        · exact fresh o' ho' _ List.mem_cons_self
        · rw [List.mem_singleton.1 ho']
          exact (List.nodup_cons.1 hnd).1
    · intro o ho
      rcases List.mem_append.1 ho with ho | ho
      · exact ha'.nodup o ho
      · rw [List.mem_singleton.1 ho]
        have := (make_eq_ok h2).2.2
        rw [← hnew.2, List.map_map] at this
        exact this
    · intro k o hk r hr
      obtain ⟨h3, h4⟩ := ha'.slots k o hk r hr
      refine ⟨h3, fun o' ho' h => ?_⟩
      rcases List.mem_append.1 ho' with ho' | ho'
      · exact h4 o' ho' h
      · rw [List.mem_singleton.1 ho'] at h
        have h5 := (ha.slots k o hk r hr).1
        have h6 := (hmem _ (List.mem_cons_of_mem _ h)).1
        omega

theorem Agree.step_run {s : Session} {v : VSession} (ha : Agree s v) (is : List ℕ) :
    Agree (s.step (.run is)).1 (v.step (.run is)).1 ∧ (s.step (.run is)).2 = (v.step (.run is)).2 := by
  have hos : (is.filterMap (fun i => s.objs[i]?)).map (Obj.view s.store) =
      is.filterMap (fun i => v.objs[i]?) := by
    rw [List.map_filterMap]
    congr 1
    funext i
    rw [← ha.objs, List.getElem?_map]
  obtain ⟨h1, h2⟩ := HMachine.processGcodes_same s.store s.mach (is.filterMap (fun i => s.objs[i]?)) []
  rw [hos, ha.mach] at h1 h2
  refine ⟨⟨ha.objs, h1, ha.lt, ha.own, ha.word, ha.nodup, ?_⟩, h2⟩
  apply processGcodes_refs (P := RefOK s) ha.slots
  · intro o ho
    obtain ⟨i, -, hi⟩ := List.mem_filterMap.1 ho
    exact ha.copyRefs (List.mem_of_getElem? hi)
  · simp

theorem Agree.step_text {s : Session} {v : VSession} (ha : Agree s v) (t : List Char) :
    Agree (s.step (.text t)).1 (v.step (.text t)).1 ∧ (s.step (.text t)).2 = (v.step (.text t)).2 := by
  simp only [Session.step, VSession.step, HMachine.processStr, Machine.processStr]
  cases hl : Line.ofText t with
  | error e => exact ⟨ha, rfl⟩
  | ok l =>
    have ha' := ha.alloc l.block.words
    have hw := Obj.words2gcodes_same (s.store.alloc l.block.words).1 (s.store.alloc l.block.words).2
    rw [Store.alloc_new, line_words hl] at hw
    simp only
    cases ho : Obj.words2gcodes (s.store.alloc l.block.words).1 (s.store.alloc l.block.words).2 with
    | error e => rw [ho] at hw; cases hw
    | ok p =>
      obtain ⟨os, mp⟩ := p
      rw [ho] at hw
      obtain ⟨h1, h2⟩ := Prod.mk.inj (Except.ok.inj hw)
      simp only at h1 h2
      obtain ⟨h3, h4⟩ := HMachine.processGcodes_same (s.store.alloc l.block.words).1 s.mach os mp
      rw [h1, h2, show s.mach.view (s.store.alloc l.block.words).1 = v.mach from ha'.mach] at h3 h4
      have hr := Obj.words2gcodes_refs ho
      have new : ∀ r ∈ (s.store.alloc l.block.words).2,
          RefOK ⟨(s.store.alloc l.block.words).1, s.objs, s.mach⟩ r := by
        intro r hr
        obtain ⟨h5, h6⟩ := Store.alloc_mem _ _ hr
        refine ⟨h6, fun o ho h => ?_⟩
        have := ha.lt o ho r (List.mem_cons_of_mem _ h)
        omega
      refine ⟨⟨ha'.objs, h3, ha'.lt, ha'.own, ha'.word, ha'.nodup, ?_⟩, h4⟩
      apply processGcodes_refs (P := RefOK ⟨(s.store.alloc l.block.words).1, s.objs, s.mach⟩) ha'.slots
      · intro o hom
        exact ⟨new _ (hr.1 o hom _ List.mem_cons_self),
          fun r h5 _ => new r (hr.1 o hom r (List.mem_cons_of_mem _ h5))⟩
      · intro r h5; exact new r (hr.2 r h5)

/-- Changing a word that no other gcode and no mode refers to. -/
theorem Agree.write {s : Session} {v : VSession} (ha : Agree s v) {i : ℕ} {o : Obj} (ho : s.objs[i]? = some o)
    {r : ℕ} (hr : r ∈ o.params) (w : Word) (hw : w.letter = (s.store.cell r).letter)
    (hfree : (s.store.cell r).letter ∉ o.cls.modalParams) :
    Agree ⟨s.store.write r w, s.objs.set i o, s.mach⟩
      ⟨v.objs.set i ⟨o.cls, s.store.cell o.word,
        (o.params.map s.store.cell).map (fun p => if p.letter = w.letter then w else p), false⟩, v.mach⟩ := by
  have hom := List.mem_of_getElem? ho
  have hset : s.objs.set i o = s.objs := by
    apply List.ext_getElem?
    intro j
    rw [List.getElem?_set]
    split
    · rename_i hij; subst hij; rw [ho]; simp [(List.getElem?_eq_some_iff.1 ho).1]
    · rfl
  have same : ∀ q, q ≠ r → (s.store.write r w).cell q = s.store.cell q :=
    fun q hq => Function.update_of_ne hq _ _
  have new : (s.store.write r w).cell r = w := Function.update_self _ _ _
  have letters : ∀ q, ((s.store.write r w).cell q).letter = (s.store.cell q).letter := by
    intro q
    by_cases hq : q = r
    · subst hq; rw [new, hw]
    · rw [same q hq]
  rw [hset]
  refine ⟨?_, ?_, ha.lt, ha.own, ha.word, ?_, ?_⟩
  · apply List.ext_getElem?
    intro j
    simp only
    rw [List.getElem?_set, List.getElem?_map]
    by_cases hij : i = j
    · subst hij
      have hlen : i < v.objs.length := by
        rw [← ha.objs, List.length_map]; exact (List.getElem?_eq_some_iff.1 ho).1
      rw [if_pos rfl, if_pos hlen, ho]
      simp only [Option.map_some, Option.some.injEq, Obj.view, GCode.mk.injEq, true_and, and_true]
      refine ⟨same _ (fun h => ha.word o hom o hom (h ▸ hr)), ?_⟩
      rw [List.map_map]
      apply List.map_congr_left
      intro q hq
      simp only [Function.comp]
      by_cases hqr : q = r
      · subst hqr; rw [new, if_pos hw.symm]
      · rw [same q hqr, if_neg]
        intro h
        exact hqr (List.inj_on_of_nodup_map (ha.nodup o hom) hq hr (h.trans hw))
    · rw [if_neg hij, ← ha.objs, List.getElem?_map]
      cases hj : s.objs[j]? with
      | none => rfl
      | some o' =>
        simp only [Option.map_some, Option.some.injEq]
        apply view_congr
        intro q hq
        apply same
        rintro rfl
        rcases List.mem_cons.1 hq with h | h
        · exact ha.word o' (List.mem_of_getElem? hj) o hom (h ▸ hr)
        · exact hij (ha.own i j o o' q ho hj hr h)
  · refine (machine_congr (fun k q hk x hx => same x ?_)).trans ha.mach
    rintro rfl
    exact hfree ((ha.slots k q hk x hx).2 o hom hr)
  · intro q hq
    have := ha.nodup q hq
    rwa [List.map_congr_left (g := fun r => (s.store.cell r).letter) (fun x _ => letters x)]
  · intro k q hk x hx
    obtain ⟨h1, h2⟩ := ha.slots k q hk x hx
    exact ⟨h1, fun o' ho' h => (letters x) ▸ h2 o' ho' h⟩

/-- Giving a gcode a new word. -/
theorem Agree.append {s : Session} {v : VSession} (ha : Agree s v) {i : ℕ} {o : Obj} (ho : s.objs[i]? = some o)
    (w : Word) (hw : ∀ r ∈ o.params, (s.store.cell r).letter ≠ w.letter) :
    Agree ⟨(s.store.alloc [w]).1, s.objs.set i ⟨o.cls, o.word, o.params ++ (s.store.alloc [w]).2⟩, s.mach⟩
      ⟨v.objs.set i ⟨o.cls, s.store.cell o.word, o.params.map s.store.cell ++ [w], false⟩, v.mach⟩ := by
  have hom := List.mem_of_getElem? ho
  have hlt := (List.getElem?_eq_some_iff.1 ho).1
  have ha' := ha.alloc [w]
  have old : ∀ r, r < s.store.next → (s.store.alloc [w]).1.cell r = s.store.cell r :=
    fun r hr => Store.alloc_old _ _ hr
  have hrefs : (s.store.alloc [w]).2 = [s.store.next] := by simp [Store.alloc, List.range_succ]
  have hcell : (s.store.alloc [w]).1.cell s.store.next = w := by simp [Store.alloc]
  have hnext : (s.store.alloc [w]).1.next = s.store.next + 1 := rfl
  rw [hrefs]
  have mem : ∀ q ∈ s.objs.set i ⟨o.cls, o.word, o.params ++ [s.store.next]⟩,
      ∃ q' ∈ s.objs, q.cls = q'.cls ∧ q.word = q'.word ∧ ∀ r ∈ q.params, r ∈ q'.params ∨ r = s.store.next := by
    intro q hq
    rcases List.mem_or_eq_of_mem_set hq with h | rfl
    · exact ⟨q, h, rfl, rfl, fun r hr => .inl hr⟩
    · refine ⟨o, hom, rfl, rfl, fun r hr => ?_⟩
      rcases List.mem_append.1 hr with h | h
      · exact .inl h
      · exact .inr (List.mem_singleton.1 h)
  have oldlt : ∀ q ∈ s.objs, s.store.next ∉ q.params := by
    intro q hq h
    have := ha.lt q hq _ (List.mem_cons_of_mem _ h)
    omega
  have idx : ∀ (j : ℕ) (q : Obj), (s.objs.set i ⟨o.cls, o.word, o.params ++ [s.store.next]⟩)[j]? = some q →
      (j = i ∧ q = ⟨o.cls, o.word, o.params ++ [s.store.next]⟩) ∨ (j ≠ i ∧ s.objs[j]? = some q) := by
    intro j q hj
    rw [List.getElem?_set] at hj
    by_cases hij : i = j
    · rw [if_pos hij, if_pos (hij ▸ hlt)] at hj
      exact .inl ⟨hij.symm, (Option.some.inj hj).symm⟩
    · rw [if_neg hij] at hj; exact .inr ⟨fun h => hij h.symm, hj⟩
  refine ⟨?_, ha'.mach, ?_, ?_, ?_, ?_, ?_⟩
  · simp only
    rw [List.map_set, ha'.objs]
    congr 1
    simp only [Obj.view, List.map_append, List.map_cons, List.map_nil, hcell]
    rw [old _ (ha.lt o hom _ List.mem_cons_self),
      List.map_congr_left (g := s.store.cell) (fun r hr => old r (ha.lt o hom _ (List.mem_cons_of_mem _ hr)))]
  · intro q hq r hr
    simp only at hq
    rw [hnext]
    obtain ⟨q', hq', -, h2, h3⟩ := mem q hq
    rcases List.mem_cons.1 hr with rfl | hr
    · rw [h2]; have := ha.lt q' hq' _ List.mem_cons_self; omega
    · rcases h3 r hr with h | h
      · have := ha.lt q' hq' _ (List.mem_cons_of_mem _ h); omega
      · omega
  · intro j k q q' r hj hk hr hr'
    rcases idx j q hj with ⟨rfl, rfl⟩ | ⟨h1, h2⟩
    · rcases idx k q' hk with ⟨rfl, rfl⟩ | ⟨h3, h4⟩
      · rfl
      · exfalso
        rcases List.mem_append.1 hr with h | h
        · exact h3 (ha.own _ _ o q' r ho h4 h hr').symm
        · rw [List.mem_singleton.1 h] at hr'
          exact oldlt q' (List.mem_of_getElem? h4) hr'
    · rcases idx k q' hk with ⟨rfl, rfl⟩ | ⟨h3, h4⟩
      · exfalso
        rcases List.mem_append.1 hr' with h | h
        · exact h1 (ha.own _ _ q o r h2 ho hr h)
        · rw [List.mem_singleton.1 h] at hr
          exact oldlt q (List.mem_of_getElem? h2) hr
      · exact ha.own j k q q' r h2 h4 hr hr'
  · intro q hq q' hq'
    obtain ⟨p, hp, -, h2, -⟩ := mem q hq
    obtain ⟨p', hp', -, -, h3⟩ := mem q' hq'
    rw [h2]
    intro h
    rcases h3 _ h with h | h
    · exact ha.word p hp p' hp' h
    · have := ha.lt p hp _ List.mem_cons_self
      omega
  · intro q hq
    rcases List.mem_or_eq_of_mem_set hq with h | rfl
    · exact ha'.nodup q h
    · simp only [List.map_append, List.map_cons, List.map_nil, hcell]
      have h1 := ha'.nodup o hom
      simp only at h1
      refine List.nodup_append.2 ⟨h1, by simp, ?_⟩
      intro a h2 b h3
      rw [List.mem_singleton.1 h3]
      obtain ⟨r, hr, rfl⟩ := List.mem_map.1 h2
      rw [old r (ha.lt o hom _ (List.mem_cons_of_mem _ hr))]
      exact hw r hr
  · intro k q hk r hr
    obtain ⟨h1, h2⟩ := ha'.slots k q hk r hr
    refine ⟨h1, fun q' hq' h => ?_⟩
    obtain ⟨p', hp', h3, -, h4⟩ := mem q' hq'
    rw [h3]
    rcases h4 r h with h | h
    · exact h2 p' hp' h
    · have := (ha.slots k q hk r hr).1
      omega

theorem Agree.step_assign {s : Session} {v : VSession} (ha : Agree s v) (i : ℕ) (l : Char) (x : ℚ)
    (hf : FreeUse v (.assign i l x)) :
    Agree (s.step (.assign i l x)).1 (v.step (.assign i l x)).1 ∧
      (s.step (.assign i l x)).2 = (v.step (.assign i l x)).2 := by
  have hv : v.objs[i]? = (s.objs[i]?).map (Obj.view s.store) := by rw [← ha.objs, List.getElem?_map]
  simp only [Session.step, VSession.step, hv]
  cases ho : s.objs[i]? with
  | none => exact ⟨ha, rfl⟩
  | some o =>
    have hom := List.mem_of_getElem? ho
    have hl : l ∉ o.cls.modalParams := hf (o.view s.store) (by rw [hv, ho]; rfl)
    simp only [Option.map_some]
    unfold Obj.assign GCode.set
    have hcls : (o.view s.store).cls = o.cls := rfl
    have hps : (o.view s.store).params = o.params.map s.store.cell := rfl
    rw [hcls, hps]
    by_cases hc : o.cls.params.contains l = true
    · rw [if_pos hc, if_pos hc]
      obtain ⟨h1, h2⟩ := param_letters_known o.cls l (by simpa using hc)
      obtain ⟨w, h3, h4⟩ := ofNum_ok l x h1 h2
      rw [h3]
      simp only
      cases hfind : o.params.find? (fun r => (s.store.cell r).letter == l) with
      | some r =>
        have hr := List.mem_of_find?_eq_some hfind
        have hrl : (s.store.cell r).letter = l := by simpa using List.find?_some hfind
        have hin : ((o.params.map s.store.cell).map Word.letter).contains l = true := by
          simp only [List.contains_eq_mem, decide_eq_true_eq, List.map_map, List.mem_map]
          exact ⟨r, hr, hrl⟩
        rw [if_pos hin]
        have := ha.write ho hr w (h4.trans hrl.symm) (hrl ▸ hl)
        rw [h4] at this
        exact ⟨this, rfl⟩
      | none =>
        have hne : ∀ r ∈ o.params, (s.store.cell r).letter ≠ l := by
          intro r hr
          simpa using List.find?_eq_none.1 hfind r hr
        have hin : ¬ ((o.params.map s.store.cell).map Word.letter).contains l = true := by
          simp only [List.contains_eq_mem, decide_eq_true_eq, List.map_map, List.mem_map]
          rintro ⟨r, hr, h⟩
          exact hne r hr h
        rw [if_neg hin]
        have hadd : (o.view s.store).addParam w =
            .ok ⟨o.cls, s.store.cell o.word, o.params.map s.store.cell ++ [w], false⟩ := by
          unfold GCode.addParam
          rw [hcls, hps, h4, hc, if_neg (by simp), if_neg hin]
          rfl
        rw [hadd]
        exact ⟨ha.append ho w (fun r hr => h4 ▸ hne r hr), rfl⟩
    · rw [if_neg hc, if_neg hc]
      refine ⟨?_, rfl⟩
      simp only
      have e1 : s.objs.set i o = s.objs := by
        apply List.ext_getElem?
        intro j
        rw [List.getElem?_set]
        split
        · rename_i hij; subst hij; rw [ho]; simp [(List.getElem?_eq_some_iff.1 ho).1]
        · rfl
      have e2 : v.objs.set i (o.view s.store) = v.objs := by
        rw [← ha.objs, ← List.map_set, e1]
      rw [e1, e2]
      exact ha

theorem Agree.step {s : Session} {v : VSession} (ha : Agree s v) (u : GUse) (hf : FreeUse v u) :
    Agree (s.step u).1 (v.step u).1 ∧ (s.step u).2 = (v.step u).2 := by
  cases u with
  | make c w ps => exact ha.step_make c w ps
  | assign i l x => exact ha.step_assign i l x hf
  | run is => exact ha.step_run is
  | text t => exact ha.step_text t

theorem Agree.steps {us : List GUse} {s : Session} {v : VSession} (ha : Agree s v) (hf : Free v us) :
    Agree (s.steps us) (v.steps us) := by
  induction us generalizing s v with
  | nil => exact ha
  | cons u us ih => exact ih (ha.step u hf.1).1 hf.2

/-! ## C81 -/

/-- A program that has made no gcodes yet, and a machine in whatever state. -/
theorem agree_start (h : Store) (m : HMachine) (hm : SlotRefs (· < h.next) m) :
    Agree ⟨h, [], m⟩ ⟨[], m.view h⟩ := by
  refine ⟨rfl, rfl, ?_, ?_, ?_, ?_, ?_⟩ <;> simp
  intro k o hk r hr
  exact ⟨hm k o hk r hr, by simp⟩

/-- **C81**, partial: a program that creates gcodes, changes parameters, has a machine execute gcodes and
texts, and assigns no *modal* parameter of a gcode (there are some only on canned cycles): the gcodes
and the machine are at every moment what they are when nothing is shared, so that an assignment changes
that gcode only, and executing a gcode no gcode.  Missing for the full claim: assignments to modal
parameters, for which it does not hold (`C81_refuted`). -/
theorem C81_values_partial (h : Store) (m : HMachine) (hm : SlotRefs (· < h.next) m) (us : List GUse)
    (hf : Free ⟨[], m.view h⟩ us) :
    ((Session.mk h [] m).steps us).objs.map (Obj.view ((Session.mk h [] m).steps us).store) =
      ((VSession.mk [] (m.view h)).steps us).objs ∧
    ((Session.mk h [] m).steps us).mach.view ((Session.mk h [] m).steps us).store =
      ((VSession.mk [] (m.view h)).steps us).mach :=
  let ha := (agree_start h m hm).steps hf
  ⟨ha.objs, ha.mach⟩

theorem free_append {us : List GUse} {v : VSession} {u : GUse} (hf : Free v (us ++ [u])) :
    Free v us ∧ FreeUse (v.steps us) u := by
  induction us generalizing v with
  | nil => exact ⟨trivial, hf.1⟩
  | cons a us ih => exact ⟨⟨hf.1, (ih hf.2).1⟩, (ih hf.2).2⟩

/-- **C81**, partial: and the same exceptions are raised. -/
theorem C81_errors_partial (h : Store) (m : HMachine) (hm : SlotRefs (· < h.next) m) (us : List GUse) (u : GUse)
    (hf : Free ⟨[], m.view h⟩ (us ++ [u])) :
    (((Session.mk h [] m).steps us).step u).2 = (((VSession.mk [] (m.view h)).steps us).step u).2 :=
  (((agree_start h m hm).steps (free_append hf).1).step u (free_append hf).2).2

/-- **C81**: which is the reason it is partial: once a gcode with a modal group has been made the mode of
the machine, the mode is the modal copy of what the gcode is *at any later moment*, as long as no
parameter is added. -/
theorem C81_shared (h h' : Store) (hl : ∀ r, (h'.cell r).letter = (h.cell r).letter) (m : HMachine) (o : Obj)
    (k : ℕ) (hk : o.cls.group = some k) (hok : (m.setMode h o).2 = none) :
    ∃ c, (m.setMode h o).1.slots k = some c ∧ (o.view h').modalCopy = .ok (c.view h') := by
  unfold HMachine.setMode at *
  simp only [hk] at *
  cases hc : o.modalCopy h with
  | error e => rw [hc] at hok; cases hok
  | ok c =>
    refine ⟨c, ?_, ?_⟩
    · simp only [HMachine.andThen]
      split <;> simp
    · have h1 := hc
      unfold Obj.modalCopy Obj.make at h1
      have h2 : GCode.make o.cls (h.cell o.word) ((o.params.filter
          (fun r => o.cls.modalParams.contains (h.cell r).letter)).map h.cell) ≠ .error .param := by
        intro h; rw [h] at h1; cases h1
      have hps : o.params.filter (fun r => o.cls.modalParams.contains (h'.cell r).letter) =
          o.params.filter (fun r => o.cls.modalParams.contains (h.cell r).letter) :=
        List.filter_congr (fun r _ => by rw [hl])
      have hcr := Obj.make_refs hc
      cases hg : GCode.make o.cls (h.cell o.word) ((o.params.filter
          (fun r => o.cls.modalParams.contains (h.cell r).letter)).map h.cell) with
      | error e => rw [hg] at h1; cases h1
      | ok g =>
        obtain ⟨-, h3, h4⟩ := make_eq_ok hg
        have hsame := Obj.modalCopy_same h' o
        have hmk : GCode.make o.cls (h'.cell o.word) ((o.params.filter
            (fun r => o.cls.modalParams.contains (h.cell r).letter)).map h'.cell) =
            .ok ⟨o.cls, h'.cell o.word, (o.params.filter
            (fun r => o.cls.modalParams.contains (h.cell r).letter)).map h'.cell, false⟩ := by
          apply make_ok
          · intro p hp
            obtain ⟨r, hr, rfl⟩ := List.mem_map.1 hp
            rw [hl]
            exact h3 _ (List.mem_map.2 ⟨r, hr, rfl⟩)
          · rw [List.map_map] at h4 ⊢
            rwa [List.map_congr_left (f := Word.letter ∘ h'.cell) (g := Word.letter ∘ h.cell) (fun r _ => hl r)]
        have : o.modalCopy h' = .ok c := by
          unfold Obj.modalCopy Obj.make
          rw [hps, hmk, hcr]
        rw [this] at hsame
        exact hsame.symm

/-- **C81**: so an assignment to a modal parameter that an executed gcode has changes the machine: the
parameter of the mode gets the value. -/
theorem C81_shared_assign (h : Store) (m : HMachine) (o : Obj) (k : ℕ) (hk : o.cls.group = some k)
    (hok : (m.setMode h o).2 = none) (l : Char) (v : ℚ) (hl : l ∈ o.cls.modalParams) (hp : l ∈ o.cls.params)
    (r : ℕ) (hr : r ∈ o.params) (hrl : (h.cell r).letter = l) :
    ∃ c w, (m.setMode h o).1.slots k = some c ∧ Word.ofNum l v = .ok w ∧
      (c.view (o.assign h l v).1).param l = some w := by
  obtain ⟨h1, h2⟩ := param_letters_known o.cls l hp
  obtain ⟨w, h3, h4⟩ := ofNum_ok l v h1 h2
  have hsome : (o.params.find? (fun r => (h.cell r).letter == l)).isSome = true := by
    rw [List.find?_isSome]; exact ⟨r, hr, by simpa using hrl⟩
  obtain ⟨q, hq⟩ := Option.isSome_iff_exists.1 hsome
  have hql : (h.cell q).letter = l := by simpa using List.find?_some hq
  have hqm := List.mem_of_find?_eq_some hq
  have hst : (o.assign h l v).1 = h.write q w := by
    unfold Obj.assign
    rw [if_pos (by simpa using hp), h3]
    simp only [hq]
  have letters : ∀ x, ((h.write q w).cell x).letter = (h.cell x).letter := by
    intro x
    by_cases hx : x = q
    · subst hx
      rw [show (h.write x w).cell x = w from Function.update_self _ _ _, h4, hql]
    · rw [show (h.write q w).cell x = h.cell x from Function.update_of_ne hx _ _]
  obtain ⟨c, h5, h6⟩ := C81_shared h (h.write q w) letters m o k hk hok
  refine ⟨c, w, h5, h3, ?_⟩
  rw [hst]
  obtain ⟨h7, h8, h9⟩ := make_eq_ok h6
  have hGOK : GOK (c.view (h.write q w)) := by
    rw [h7]; exact ⟨h9, h8⟩
  rw [param_some_iff _ hGOK]
  refine ⟨?_, h4⟩
  rw [h7]
  refine List.mem_filter.2 ⟨?_, ?_⟩
  · exact List.mem_map.2 ⟨q, hqm, Function.update_self _ _ _⟩
  · rw [h4, show (o.view (h.write q w)).cls = o.cls from rfl]; simpa using hl

/-! ## Concrete programs -/

/-- No words yet. -/
def noWords : Store := ⟨fun _ => ⟨'N', .num 0⟩, 0⟩

/-- `G81 X1 Z-3 R2` is made and executed with `G99`, then its `R` becomes 7, then the line `Y5`. -/
def sharedUses : List GUse :=
  [.text "G90 G17 G54 G99".toList,
   .make .drillingCycle ⟨'G', .num 81⟩ [⟨'X', .num 1⟩, ⟨'Z', .num (-3)⟩, ⟨'R', .num 2⟩],
   .run [0], .assign 0 'R' 7, .text "Y5".toList]

/-- **C81** fails: with objects the machine ends at `Z7`, with values at `Z2`. -/
theorem C81_refuted :
    ((((Session.mk noWords [] (.ofBase newNull)).steps sharedUses).mach.view
        ((Session.mk noWords [] (.ofBase newNull)).steps sharedUses).store).pos.map (fun p => (p.val .Y, p.val .Z)) =
      .ok (5, 7)) ∧
    (((VSession.mk [] newNull).steps sharedUses).mach.pos.map (fun p => (p.val .Y, p.val .Z)) = .ok (5, 2)) := by
  constructor <;> decide +kernel

/-- Non-trivial case for `C81_values_partial`: parameters of `G1` and `L` of `G81` are assigned after they have
been executed. -/
def freeUses : List GUse :=
  [.text "G90 G17 G54 G99".toList,
   .make .drillingCycle ⟨'G', .num 81⟩ [⟨'X', .num 1⟩, ⟨'Z', .num (-3)⟩, ⟨'R', .num 2⟩, ⟨'L', .num 1⟩],
   .run [0], .assign 0 'L' 2, .text "Y5".toList,
   .make .linearMove ⟨'G', .num 1⟩ [⟨'X', .num 4⟩], .run [1], .assign 1 'X' 9, .assign 1 'Z' 8, .text "Y6".toList]

example : Free (VSession.mk [] newNull) freeUses := by
  refine ⟨trivial, trivial, trivial, fun g hg => ?_, trivial, trivial, trivial, fun g hg => ?_, fun g hg => ?_,
    trivial, trivial⟩
  · have : (((VSession.mk [] newNull).steps (freeUses.take 3)).objs[0]?).map GCode.cls = some .drillingCycle := by
      decide +kernel
    have h2 : some g.cls = some .drillingCycle := by rw [← this]; exact (congrArg (Option.map GCode.cls) hg).symm
    rw [Option.some.inj h2]; decide +kernel
  · have : (((VSession.mk [] newNull).steps (freeUses.take 7)).objs[1]?).map GCode.cls = some .linearMove := by
      decide +kernel
    have h2 : some g.cls = some .linearMove := by rw [← this]; exact (congrArg (Option.map GCode.cls) hg).symm
    rw [Option.some.inj h2]; decide +kernel
  · have : (((VSession.mk [] newNull).steps (freeUses.take 8)).objs[1]?).map GCode.cls = some .linearMove := by
      decide +kernel
    have h2 : some g.cls = some .linearMove := by rw [← this]; exact (congrArg (Option.map GCode.cls) hg).symm
    rw [Option.some.inj h2]; decide +kernel
example : SlotRefs (· < noWords.next) (.ofBase newNull) := by intro k o h; cases h
example : (((Session.mk noWords [] (.ofBase newNull)).steps freeUses).mach.view
    ((Session.mk noWords [] (.ofBase newNull)).steps freeUses).store).pos.map
      (fun p => (p.val .X, p.val .Y, p.val .Z)) = .ok (4, 6, 2) := by decide +kernel

/-- Non-trivial case for `C81_shared_assign`. -/
example : ∃ (h : Store) (o : Obj), o.cls.group = some 1 ∧ ((HMachine.ofBase newNull).setMode h o).2 = none ∧
    'R' ∈ o.cls.modalParams ∧ 'R' ∈ o.cls.params ∧ ∃ r ∈ o.params, (h.cell r).letter = 'R' :=
  ⟨(noWords.alloc [⟨'G', .num 81⟩, ⟨'X', .num 1⟩, ⟨'R', .num 2⟩]).1, ⟨.drillingCycle, 0, [1, 2]⟩,
    by decide +kernel, by decide +kernel, by decide +kernel, by decide +kernel, 2, by decide, by decide +kernel⟩

end Pygcode.Props
