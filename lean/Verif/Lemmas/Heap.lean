import Verif.Model.Heap
import Verif.Lemmas.Group
import Verif.Props.GCodeObj

/-! What the objects do is what the values do, as long as no word changes. -/

namespace Pygcode
open Machine

/-! ## Stores -/

theorem Store.alloc_old (h : Store) (ws : List Word) {r : ℕ} (hr : r < h.next) :
    (h.alloc ws).1.cell r = h.cell r := by
  simp [Store.alloc, hr]

theorem Store.alloc_new (h : Store) (ws : List Word) : (h.alloc ws).2.map (h.alloc ws).1.cell = ws := by
  apply List.ext_getElem?
  intro i
  simp only [Store.alloc, List.map_map, List.getElem?_map]
  by_cases hi : i < ws.length
  · rw [List.getElem?_range hi]
    simp [List.getElem?_eq_getElem hi]
  · rw [List.getElem?_eq_none (by simpa using hi), List.getElem?_eq_none (by omega)]; rfl

theorem Store.alloc_mem (h : Store) (ws : List Word) {r : ℕ} (hr : r ∈ (h.alloc ws).2) :
    h.next ≤ r ∧ r < (h.alloc ws).1.next := by
  simp only [Store.alloc, List.mem_map, List.mem_range] at *
  obtain ⟨a, ha, rfl⟩ := hr
  omega

theorem Store.alloc_next (h : Store) (ws : List Word) : h.next ≤ (h.alloc ws).1.next := by
  simp [Store.alloc]

/-! ## Gcodes -/

/-- Two results, one made of objects and one of values. -/
def ExSame {α β : Type} (f : α → β) (a : Except Err α) (b : Except Err β) : Prop := a.map f = b

theorem exSame_cases {α β : Type} {f : α → β} {a : Except Err α} {b : Except Err β} (h : ExSame f a b) :
    (∃ e, a = .error e ∧ b = .error e) ∨ ∃ x, a = .ok x ∧ b = .ok (f x) := by
  unfold ExSame at h
  cases a with
  | error e => exact .inl ⟨e, rfl, h.symm⟩
  | ok x => exact .inr ⟨x, rfl, h.symm⟩

theorem Obj.make_same (h : Store) (c : Cls) (w : ℕ) (ps : List ℕ) :
    ExSame (Obj.view h) (Obj.make h c w ps) (GCode.make c (h.cell w) (ps.map h.cell)) := by
  unfold ExSame Obj.make
  cases hm : GCode.make c (h.cell w) (ps.map h.cell) with
  | error e => rfl
  | ok g => rw [(make_eq_ok hm).1]; rfl

theorem Obj.make_refs {h : Store} {c : Cls} {w : ℕ} {ps : List ℕ} {o : Obj} (ho : Obj.make h c w ps = .ok o) :
    o = ⟨c, w, ps⟩ := by
  unfold Obj.make at ho
  cases hm : GCode.make c (h.cell w) (ps.map h.cell) with
  | error e => rw [hm] at ho; cases ho
  | ok g => rw [hm] at ho; exact (Except.ok.inj ho).symm

theorem filter_cells (h : Store) (p : Word → Bool) (rs : List ℕ) :
    (rs.filter (fun r => p (h.cell r))).map h.cell = (rs.map h.cell).filter p := by
  rw [List.filter_map]; rfl

theorem Obj.modalCopy_same (h : Store) (o : Obj) :
    ExSame (Obj.view h) (o.modalCopy h) (o.view h).modalCopy := by
  have := Obj.make_same h o.cls o.word (o.params.filter (fun r => o.cls.modalParams.contains (h.cell r).letter))
  rw [filter_cells h (fun w => o.cls.modalParams.contains w.letter)] at this
  exact this

theorem Obj.execSort_view (h : Store) (os : List Obj) :
    (Obj.execSort os).map (Obj.view h) = Pygcode.execSort (os.map (Obj.view h)) := by
  unfold Obj.execSort Pygcode.execSort
  exact List.map_insertionSort _ _ _ _ (fun a _ b _ => Iff.rfl)

theorem linkStep_words (infos : List Info) (i : ℕ) :
    (linkStep infos i).map Info.word = infos.map Info.word := by
  unfold linkStep
  split
  · rfl
  · apply List.ext_getElem?
    intro k
    rw [List.getElem?_map, List.getElem?_mapIdx, List.getElem?_map]
    cases infos[k]? with
    | none => rfl
    | some p => simp only [Option.map_some]; split <;> rfl

theorem link_words (ws : List Word) : (link (infoList ws)).map Info.word = ws := by
  rw [link_eq]
  generalize (infoList ws).length = n
  induction n with
  | zero => simp [linkN, infoList, Function.comp_def]
  | succ n ih => rw [linkN_succ, linkStep_words, ih]

theorem paramMap_same (h : Store) (rs : List ℕ) (k : Option ℕ) :
    (Obj.paramMap (link (infoList (rs.map h.cell))) rs k).map h.cell =
      Pygcode.paramMap (link (infoList (rs.map h.cell))) k := by
  have hw := link_words (rs.map h.cell)
  generalize link (infoList (rs.map h.cell)) = infos at hw
  unfold Obj.paramMap Pygcode.paramMap
  induction infos generalizing rs with
  | nil => rfl
  | cons p infos ih =>
    cases rs with
    | nil => simp at hw
    | cons r rs =>
      rw [List.map_cons, List.map_cons, List.cons.injEq] at hw
      rw [List.zip_cons_cons, List.filter_cons, List.filter_cons]
      by_cases hp : (p.cls.isNone && p.owner == k) = true
      · rw [if_pos hp, if_pos hp, List.map_cons, List.map_cons, List.map_cons, ih rs hw.2, hw.1]
      · rw [if_neg hp, if_neg hp, ih rs hw.2]

theorem build_same (h : Store) (rs : List ℕ) (i : ℕ) (tail : List (Info × ℕ))
    (ht : tail.map (fun p => p.1.word) = tail.map (fun p => h.cell p.2)) :
    ExSame (List.map (Obj.view h)) (Obj.words2gcodes.build h rs (link (infoList (rs.map h.cell))) i tail)
      (Pygcode.words2gcodes.build (link (infoList (rs.map h.cell))) i (tail.map Prod.fst)) := by
  induction tail generalizing i with
  | nil => rfl
  | cons p tail ih =>
    rw [List.map_cons, List.map_cons, List.cons.injEq] at ht
    rw [List.map_cons]
    unfold Obj.words2gcodes.build Pygcode.words2gcodes.build
    cases hc : p.1.cls with
    | none => exact ih (i + 1) ht.2
    | some c =>
      simp only
      rw [ht.1, ← paramMap_same]
      rcases exSame_cases (Obj.make_same h c p.2 (Obj.paramMap (link (infoList (rs.map h.cell))) rs (some i)))
        with ⟨e, h1, h2⟩ | ⟨o, h1, h2⟩
      · rw [h1, h2]; rfl
      · rw [h1, h2]
        rcases exSame_cases (ih (i + 1) ht.2) with ⟨e, h3, h4⟩ | ⟨os, h3, h4⟩
        · rw [h3, h4]; rfl
        · rw [h3, h4]; rfl

theorem Obj.words2gcodes_same (h : Store) (rs : List ℕ) :
    ExSame (fun p => (p.1.map (Obj.view h), p.2.map h.cell)) (Obj.words2gcodes h rs)
      (Pygcode.words2gcodes (rs.map h.cell)) := by
  have hlen : (link (infoList (rs.map h.cell))).length = rs.length := by rw [link_length]; simp
  have hz : ((link (infoList (rs.map h.cell))).zip rs).map (fun p => p.1.word) =
      ((link (infoList (rs.map h.cell))).zip rs).map (fun p => h.cell p.2) := by
    have h1 : ((link (infoList (rs.map h.cell))).zip rs).map (fun p => p.1.word) =
        (link (infoList (rs.map h.cell))).map Info.word := by
      have := congrArg (List.map Info.word) (List.map_fst_zip (le_of_eq hlen))
      rwa [List.map_map] at this
    have h2 : ((link (infoList (rs.map h.cell))).zip rs).map (fun p => h.cell p.2) = rs.map h.cell := by
      have := congrArg (List.map h.cell) (List.map_snd_zip (ge_of_eq hlen))
      rwa [List.map_map] at this
    rw [h1, h2, link_words]
  have hb := build_same h rs 0 _ hz
  rw [List.map_fst_zip (by omega)] at hb
  unfold Obj.words2gcodes Pygcode.words2gcodes
  simp only
  rcases exSame_cases hb with ⟨e, h1, h2⟩ | ⟨os, h1, h2⟩
  · rw [h1, h2]; rfl
  · rw [h1, h2]
    simp only [ExSame, Except.map]
    rw [paramMap_same]

/-- References in gcodes made from words are among the given ones. -/
theorem paramMap_refs (infos : List Info) (rs : List ℕ) (k : Option ℕ) : ∀ r ∈ Obj.paramMap infos rs k, r ∈ rs := by
  intro r hr
  unfold Obj.paramMap at hr
  obtain ⟨p, hp, rfl⟩ := List.mem_map.1 hr
  exact (List.of_mem_zip (a := p.1) (b := p.2) (List.mem_of_mem_filter hp)).2

theorem build_refs (h : Store) (rs : List ℕ) (infos : List Info) (i : ℕ) (tail : List (Info × ℕ))
    (ht : ∀ p ∈ tail, p.2 ∈ rs) {os : List Obj} (ho : Obj.words2gcodes.build h rs infos i tail = .ok os) :
    ∀ o ∈ os, ∀ r ∈ o.word :: o.params, r ∈ rs := by
  induction tail generalizing i os with
  | nil => unfold Obj.words2gcodes.build at ho; cases ho; simp
  | cons p tail ih =>
    have ht' : ∀ q ∈ tail, q.2 ∈ rs := fun q hq => ht q (List.mem_cons_of_mem _ hq)
    unfold Obj.words2gcodes.build at ho
    cases hc : p.1.cls with
    | none => rw [hc] at ho; exact ih (i + 1) ht' ho
    | some c =>
      rw [hc] at ho
      simp only at ho
      cases hm : Obj.make h c p.2 (Obj.paramMap infos rs (some i)) with
      | error e => rw [hm] at ho; cases ho
      | ok o =>
        rw [hm] at ho
        cases hb : Obj.words2gcodes.build h rs infos (i + 1) tail with
        | error e => rw [hb] at ho; cases ho
        | ok os' =>
          rw [hb] at ho
          obtain rfl := Except.ok.inj ho
          intro q hq
          rcases List.mem_cons.1 hq with rfl | hq
          · rw [Obj.make_refs hm]
            intro r hr
            rcases List.mem_cons.1 hr with rfl | hr
            · exact ht p List.mem_cons_self
            · exact paramMap_refs _ _ _ r hr
          · exact ih (i + 1) ht' hb q hq

theorem Obj.words2gcodes_refs {h : Store} {rs : List ℕ} {os : List Obj} {mp : List ℕ}
    (ho : Obj.words2gcodes h rs = .ok (os, mp)) :
    (∀ o ∈ os, ∀ r ∈ o.word :: o.params, r ∈ rs) ∧ ∀ r ∈ mp, r ∈ rs := by
  unfold Obj.words2gcodes at ho
  simp only at ho
  cases hb : Obj.words2gcodes.build h rs (link (infoList (rs.map h.cell))) 0
      ((link (infoList (rs.map h.cell))).zip rs) with
  | error e => rw [hb] at ho; cases ho
  | ok os' =>
    rw [hb] at ho
    obtain ⟨rfl, rfl⟩ := Prod.mk.inj (Except.ok.inj ho)
    exact ⟨build_refs h rs _ 0 _ (fun p hp => (List.of_mem_zip (a := p.1) (b := p.2) hp).2) hb,
      paramMap_refs _ _ _⟩

/-! ## Machines -/

/-- Same outcome. -/
def HSame (h : Store) (a : HRes) (b : MRes) : Prop := a.1.view h = b.1 ∧ a.2 = b.2

theorem hSame_andThen {h : Store} {a : HRes} {b : MRes} {f : HMachine → HRes} {g : Machine → MRes}
    (hab : HSame h a b) (hfg : ∀ m : HMachine, HSame h (f m) (g (m.view h))) :
    HSame h (HMachine.andThen a f) (Machine.andThen b g) := by
  obtain ⟨m, e⟩ := a
  obtain ⟨m', e'⟩ := b
  obtain ⟨h1, h2⟩ := hab
  simp only at h1 h2
  subst h1 h2
  cases e with
  | none => exact hfg m
  | some e => exact ⟨rfl, rfl⟩

theorem HMachine.setMode_same (h : Store) (m : HMachine) (o : Obj) :
    HSame h (m.setMode h o) ((m.view h).setMode [o.view h]) := by
  have hupd : ∀ (k : ℕ) (c : Obj), (fun j => ((Function.update m.slots k (some c)) j).map (Obj.view h)) =
      Function.update (fun j => (m.slots j).map (Obj.view h)) k (some (c.view h)) := by
    intro k c; funext j
    by_cases hj : j = k
    · subst hj; simp
    · simp [Function.update_of_ne hj]
  have hs : Pygcode.execSort [o.view h] = [o.view h] := rfl
  unfold HMachine.setMode Machine.setMode Mode.setMode Mode.setLoop Mode.setOne
  rw [hs]
  have hcls : (o.view h).cls = o.cls := rfl
  simp only [hcls]
  cases hk : o.cls.group with
  | none =>
    simp only [HMachine.andThen, Mode.setLoop]
    unfold Mode.coordSystem
    simp only [HMachine.view]
    cases m.slots 12 with
    | none => exact ⟨rfl, rfl⟩
    | some g => exact ⟨rfl, rfl⟩
  | some k =>
    simp only
    rcases exSame_cases (Obj.modalCopy_same h o) with ⟨e, h1, h2⟩ | ⟨c, h1, h2⟩
    · rw [h1, h2]; exact ⟨rfl, rfl⟩
    · rw [h1, h2]
      simp only [HMachine.andThen, Mode.setLoop]
      unfold Mode.coordSystem
      have e12 : (Function.update (m.view h).mode k (some (c.view h))) 12 =
          ((Function.update m.slots k (some c)) 12).map (Obj.view h) := by
        rw [show (m.view h).mode = fun j => (m.slots j).map (Obj.view h) from rfl, ← hupd]
      rw [e12]
      cases h12 : (Function.update m.slots k (some c)) 12 with
      | none =>
        refine ⟨?_, rfl⟩
        unfold HMachine.view
        simp only [Option.map_none]
        rw [hupd]
      | some g =>
        refine ⟨?_, rfl⟩
        unfold HMachine.view
        simp only [Option.map_some]
        rw [hupd]
        rfl

theorem setPos_mode_any (m : Machine) (p : Position) : (m.setPos p).1.mode = m.mode := by
  unfold setPos updateRange
  cases m.work2abs p with
  | error e => rfl
  | ok a =>
    simp only
    cases Position.min a m.rangeMin with
    | error e => rfl
    | ok lo =>
      simp only
      cases Position.max a m.rangeMax with
      | error e => rfl
      | ok hi => rfl

theorem move_mode_any (m : Machine) (cs : Coords) : (m.move cs).1.mode = m.mode := by
  unfold move
  by_cases hi : m.incremental = true
  · rw [if_pos hi]
    simp only
    cases m.pos with
    | error e => rfl
    | ok p =>
      simp only
      split
      · rfl
      · split
        · rfl
        · exact setPos_mode_any _ _
  · rw [if_neg hi]
    cases m.pos with
    | error e => rfl
    | ok p =>
      simp only
      split
      · rfl
      · split
        · rfl
        · split
          · rfl
          · exact setPos_mode_any _ _

theorem moves_mode_any (n : ℕ) (m : Machine) (cs : Coords) : (m.moves cs n).1.mode = m.mode := by
  induction n generalizing m with
  | zero => rfl
  | succ n ih =>
    unfold moves Machine.andThen
    have := move_mode_any m cs
    generalize m.move cs = r at this
    obtain ⟨m', e⟩ := r
    cases e with
    | none => exact (ih m').trans this
    | some e => exact this

theorem effect_mode_any (m : Machine) (g : GCode) :
    (m.effect g).1.mode = if g.cls.proc = .cancel then Function.update m.mode 1 none else m.mode := by
  unfold effect
  cases g.cls.proc with
  | nothing => rfl
  | motion => exact move_mode_any _ _
  | rapid => exact move_mode_any _ _
  | cancel => rfl
  | canned =>
    simp only
    cases m.cannedCoords g with
    | error e => rfl
    | ok cs =>
      simp only
      cases loopCount g with
      | error e => rfl
      | ok n => exact moves_mode_any _ _ _

theorem HMachine.effect_same (h : Store) (m : HMachine) (o : Obj) :
    HSame h (m.effect h o) ((m.view h).effect (o.view h)) := by
  refine ⟨?_, rfl⟩
  have hmode := effect_mode_any (m.view h) (o.view h)
  have hcls : (o.view h).cls = o.cls := rfl
  rw [hcls] at hmode
  unfold HMachine.effect
  generalize (m.view h).effect (o.view h) = r at hmode
  obtain ⟨m', e⟩ := r
  obtain ⟨ax, ig, md, st, a, lo, hi⟩ := m'
  simp only at hmode
  unfold HMachine.view
  simp only [Machine.mk.injEq, true_and, and_true]
  rw [hmode]
  funext j
  by_cases hp : o.cls.proc = .cancel
  · rw [if_pos hp, if_pos hp]
    by_cases hj : j = 1
    · subst hj; simp
    · simp [Function.update_of_ne hj, HMachine.view]
  · rw [if_neg hp, if_neg hp]; rfl

theorem HMachine.process_same (h : Store) (m : HMachine) (o : Obj) :
    HSame h (m.process h o) ((m.view h).process (o.view h)) :=
  hSame_andThen (HMachine.setMode_same h m o) (fun m => HMachine.effect_same h m o)

theorem HMachine.processAll_same (h : Store) (os : List Obj) (m : HMachine) :
    HSame h (m.processAll h os) ((m.view h).processAll (os.map (Obj.view h))) := by
  induction os generalizing m with
  | nil => exact ⟨rfl, rfl⟩
  | cons o os ih => exact hSame_andThen (HMachine.process_same h m o) ih

theorem overrideOne_same (h : Store) (ps : List ℕ) (r : ℕ) :
    (HMachine.overrideOne h ps r).map h.cell = Machine.overrideOne (ps.map h.cell) (h.cell r) := by
  unfold HMachine.overrideOne Machine.overrideOne
  rw [List.map_map]
  have : (Word.letter ∘ h.cell) = fun p => (h.cell p).letter := rfl
  rw [this]
  by_cases hc : ((ps.map (fun p => (h.cell p).letter)).contains (h.cell r).letter) = true
  · rw [if_pos hc, if_pos hc, List.map_map, List.map_map]
    apply List.map_congr_left
    intro p _
    simp only [Function.comp]
    split <;> rfl
  · rw [if_neg hc, if_neg hc, List.map_append]; rfl

theorem override_same (h : Store) (mp ps : List ℕ) :
    (mp.foldl (HMachine.overrideOne h) ps).map h.cell = Machine.override (ps.map h.cell) (mp.map h.cell) := by
  unfold Machine.override
  induction mp generalizing ps with
  | nil => rfl
  | cons r mp ih => rw [List.foldl_cons, List.map_cons, List.foldl_cons, ih, overrideOne_same]

theorem override_refs (h : Store) (mp ps : List ℕ) :
    ∀ r ∈ mp.foldl (HMachine.overrideOne h) ps, r ∈ ps ∨ r ∈ mp := by
  induction mp generalizing ps with
  | nil => intro r hr; exact .inl hr
  | cons q mp ih =>
    intro r hr
    rw [List.foldl_cons] at hr
    rcases ih _ r hr with hr | hr
    · unfold HMachine.overrideOne at hr
      split at hr
      · obtain ⟨p, hp, rfl⟩ := List.mem_map.1 hr
        split
        · exact .inr List.mem_cons_self
        · exact .inl hp
      · rcases List.mem_append.1 hr with hr | hr
        · exact .inl hr
        · rw [List.mem_singleton.1 hr]; exact .inr List.mem_cons_self
    · exact .inr (List.mem_cons_of_mem _ hr)

theorem HMachine.modalGcode_same (h : Store) (m : HMachine) (mp : List ℕ) :
    ExSame (Option.map (Obj.view h)) (m.modalGcode h mp) ((m.view h).modalGcode (mp.map h.cell)) := by
  unfold HMachine.modalGcode Machine.modalGcode
  by_cases hmp : mp = []
  · subst hmp; rfl
  · have hmp' : ¬ mp.map h.cell = [] := by simpa using hmp
    rw [if_neg hmp, if_neg hmp']
    unfold Mode.motion
    simp only [HMachine.view]
    cases m.slots 1 with
    | none =>
      simp only [Option.map_none]
      by_cases hig : m.base.ignoreInvalid = true
      · rw [if_pos hig]; exact (if_pos (c := (m.view h).ignoreInvalid = true) hig).symm
      · rw [if_neg hig]; exact (if_neg (c := (m.view h).ignoreInvalid = true) hig).symm
    | some g =>
      simp only [Option.map_some]
      have := Obj.words2gcodes_same h (g.word :: mp.foldl (HMachine.overrideOne h) g.params)
      rw [List.map_cons, override_same] at this
      rcases exSame_cases this with ⟨e, h1, h2⟩ | ⟨⟨gs, un⟩, h1, h2⟩
      · rw [h1]
        rw [show (Pygcode.words2gcodes ((Obj.view h g).word :: override (Obj.view h g).params (mp.map h.cell))) =
          .error e from h2]
        rfl
      · rw [h1]
        rw [show (Pygcode.words2gcodes ((Obj.view h g).word :: override (Obj.view h g).params (mp.map h.cell))) =
          .ok (gs.map (Obj.view h), un.map h.cell) from h2]
        simp only [ne_eq, List.map_eq_nil_iff]
        split
        · rfl
        · match gs with
          | [] => rfl
          | [g'] => rfl
          | a :: b :: c => rfl

theorem HMachine.processGcodes_same (h : Store) (m : HMachine) (os : List Obj) (mp : List ℕ) :
    HSame h (m.processGcodes h os mp) ((m.view h).processGcodes (os.map (Obj.view h)) (mp.map h.cell)) := by
  unfold HMachine.processGcodes Machine.processGcodes
  rcases exSame_cases (HMachine.modalGcode_same h m mp) with ⟨e, h1, h2⟩ | ⟨og, h1, h2⟩
  · rw [h1, h2]; exact ⟨rfl, rfl⟩
  · rw [h1, h2]
    have := HMachine.processAll_same h (Obj.execSort (os ++ og.toList)) m
    rw [Obj.execSort_view, List.map_append] at this
    cases og with
    | none => exact this
    | some g => exact this

end Pygcode
