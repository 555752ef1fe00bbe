import Verif.Props.NormInvalid
import Verif.Props.NormFinish

/-!
# When `pygcode-norm` gets to the end of a program (C88)
-/

namespace Pygcode
open Props Machine Spec

/-! ## Specification -/

/-- The block of a line that is executed: with `--rm_invalid_modal` the words that are not accepted
have been taken out, which fails if two of the others have one letter. -/
def blockDone (o : NormOpts) (m : Machine) (b : Block) : Except Err Block :=
  if o.rmInvalid then
    if ((validWords m b).map Word.letter).Nodup then .ok { b with modalParams := validWords m b } else .error .param
  else .ok b

/-- Executing one line of the input. -/
def lineEffect (o : NormOpts) (m : Machine) (t : List Char) : MRes :=
  match Line.ofText t with
  | .error e => (m, some e)
  | .ok l =>
    match blockDone o m l.block with
    | .error e => (m, some e)
    | .ok b => m.processBlock b

/-- Executing lines until one fails. -/
def linesEffect (o : NormOpts) (m : Machine) : List (List Char) → MRes
  | [] => (m, none)
  | t :: ts => andThen (lineEffect o m t) (fun m => linesEffect o m ts)

/-- The end that goes with the end of an execution. -/
def endsAs : Option Err → Status
  | none => .done
  | some e => .raised e

/-- Where the machine stands, the cycle can be replaced by moves: the plane is XY, and unless it is
done no times, all its levels are given, it does not go up, does not dwell, and does get deeper. -/
def Drillable (m : Machine) (g : GCode) : Prop :=
  planeOf m = .selectXYPlane ∧ ∃ p, m.pos = .ok p ∧
    (reps g = 0 ∨ (Complete g ∧ bottomLevel g p m.incremental ≤ retractLevel g p m.incremental ∧
      g.cls ≠ .drillingCycleDwell ∧
      (Pecks g → ∃ q, g.num? 'Q' = some q ∧
        (q ≠ 0 ∨ bottomLevel g p m.incremental = retractLevel g p m.incremental))))

/-- If the gcodes in effect on the line include one that is to be expanded, then there is a cycle
among them, and the first can be replaced where it is reached. -/
def LineDrills (o : NormOpts) (m : Machine) (t : List Char) : Prop :=
  ∀ l b gs, Line.ofText t = .ok l → blockDone o m l.block = .ok b → m.blockModalGcodes b = .ok gs →
    (∃ g ∈ gs, g.word ∈ o.cannedCodes) →
    ∃ before g after, gs = before ++ g :: after ∧ (∀ x ∈ before, x.cls.isSub .cannedCycle = false) ∧
      g.cls.isSub .cannedCycle = true ∧ Drillable (m.processAll before).1 g

/-- All lines, as they are reached. -/
def LinesDrill (o : NormOpts) (m : Machine) : List (List Char) → Prop
  | [] => True
  | t :: ts => LineDrills o m t ∧ LinesDrill o (lineEffect o m t).1 ts

/-! ## Following the machine -/

theorem linesEffect_read (o : NormOpts) (hi : o.rmInvalid = false) (m : Machine) (ts : List (List Char)) :
    linesEffect o m ts = readLines m ts := by
  induction ts generalizing m with
  | nil => rfl
  | cons t ts ih =>
    unfold linesEffect readLines
    have : lineEffect o m t = m.processStr t := by
      unfold lineEffect processStr
      cases Line.ofText t with
      | error e => rfl
      | ok l => simp only [blockDone, hi]; rfl
    rw [this]
    congr 1
    funext m'
    exact ih m'

/-- The run does to the machine what `x` says, and ends as it does. -/
def Tracks (r : NormRes) (x : MRes) : Prop := r.m = x.1 ∧ r.status = endsAs x.2

theorem Tracks.andThen {r : NormRes} {x : MRes} (h : Tracks r x) {f : Machine → NormRes} {F : Machine → MRes}
    (hf : ∀ m, Tracks (f m) (F m)) : Tracks (r.andThen f) (Machine.andThen x F) := by
  obtain ⟨out, m, s⟩ := r
  obtain ⟨m', _ | e⟩ := x
  · obtain ⟨h1, h2⟩ := h
    simp only [endsAs] at h1 h2
    subst h1 h2
    exact ⟨(hf m).1, (hf m).2⟩
  · obtain ⟨h1, h2⟩ := h
    simp only [endsAs] at h1 h2
    subst h1 h2
    exact ⟨rfl, rfl⟩

theorem Tracks.nil (m : Machine) : Tracks ⟨[], m, .done⟩ (m, none) := ⟨rfl, rfl⟩

theorem Tracks.ofM (x : MRes) : Tracks (.ofM x) x := by
  obtain ⟨m, _ | e⟩ := x <;> exact ⟨rfl, rfl⟩

theorem Tracks.put {m : Machine} {r : Except Err (List (List Char))} (h : ∃ ls, r = .ok ls) :
    Tracks (.put m r) (m, none) := by
  obtain ⟨ls, rfl⟩ := h
  exact ⟨rfl, rfl⟩

theorem write_ok (o : NormOpts) (gs : List GCode) (mp : List Word) (h : o.full = true → mp = [])
    (c : Option Comment) (mac : Option (List Char)) : ∃ ls, o.write gs mp c mac = .ok ls := by
  unfold NormOpts.write
  rw [if_neg (fun ⟨h1, h2⟩ => h2 (h h1))]
  split_ifs
  · exact ⟨_, rfl⟩
  · exact ⟨_, rfl⟩

theorem processBlock_error {m : Machine} {b : Block} {e : Err} (h : m.blockModalGcodes b = .error e) :
    m.processBlock b = (m, some e) := by
  unfold blockModalGcodes at h
  unfold processBlock processGcodes
  cases hm : m.modalGcode b.modalParams with
  | error e' => rw [hm] at h; cases h; rfl
  | ok og => rw [hm] at h; cases h

theorem plainLine_tracks (o : NormOpts) (m : Machine) (l : Line) (gs : List GCode) :
    Tracks (o.plainLine m l gs) (m.processBlock l.block) := by
  unfold NormOpts.plainLine
  have h1 : Tracks (NormRes.put m (if o.full then o.write gs [] l.comment l.macro?
      else o.write l.block.gcodes l.block.modalParams l.comment l.macro?)) (m, none) := by
    apply Tracks.put
    by_cases hf : o.full = true
    · rw [if_pos hf]; exact write_ok o _ _ (fun _ => rfl) _ _
    · rw [if_neg hf]; exact write_ok o _ _ (fun h => absurd h hf) _ _
  exact h1.andThen (F := fun m => m.processBlock l.block) (fun m => Tracks.ofM _)

theorem cleanBlock_done {o : NormOpts} (hi : o.rmInvalid = true) {m : Machine} (hn : ModeAll Named m.mode) {b : Block}
    (hb : ∀ w ∈ b.modalParams, wordClass w = none) : m.cleanBlock b = blockDone o m b := by
  obtain ⟨h1, h2⟩ := C44_clean m (fun g hg => hn 1 g hg) b hb
  unfold blockDone validWords
  rw [if_pos hi]
  cases hmo : m.mode.motion with
  | none => simpa using h1 (.inl hmo)
  | some g =>
    simp only
    by_cases hx : ∃ x ∈ b.gcodes, x.cls.group = some 1
    · simp only [if_pos hx]
      simpa using h1 (.inr hx)
    · simp only [if_neg hx]
      push Not at hx
      obtain ⟨h3, h4⟩ := h2 g hmo hx
      split_ifs with hnd
      · exact h3 hnd
      · exact h4 hnd

/-- The line that is executed. -/
theorem line_cases (o : NormOpts) (m : Machine) (hn : o.rmInvalid = true → ModeAll Named m.mode)
    (t : List Char) :
    (∃ e, (∀ fuel, o.line fuel m t = ⟨[], m, .raised e⟩) ∧ lineEffect o m t = (m, some e)) ∨
    ∃ l b gs, Line.ofText t = .ok l ∧ blockDone o m l.block = .ok b ∧ m.blockModalGcodes b = .ok gs ∧
      lineEffect o m t = m.processBlock b ∧
      ∀ fuel, o.line fuel m t = if o.cannedExpand && gs.any (fun g => decide (g.word ∈ o.cannedCodes)) then
          o.expandLine fuel m gs l.comment
        else o.plainLine m { l with block := b } gs := by
  unfold NormOpts.line lineEffect
  cases hl : Line.ofText t with
  | error e => exact .inl ⟨e, fun _ => rfl, rfl⟩
  | ok l =>
    simp only
    have hc : (if o.rmInvalid = true then (m.cleanBlock l.block).map (fun b => { l with block := b }) else .ok l) =
        (blockDone o m l.block).map (fun b => { l with block := b }) := by
      by_cases hi : o.rmInvalid = true
      · rw [if_pos hi, cleanBlock_done hi (hn hi) (line_block_ok hl).unused]
      · rw [if_neg hi]; unfold blockDone; rw [if_neg hi]; rfl
    rw [hc]
    cases hb : blockDone o m l.block with
    | error e => exact .inl ⟨e, fun _ => rfl, rfl⟩
    | ok b =>
      simp only [Except.map]
      cases hg : m.blockModalGcodes b with
      | error e => exact .inl ⟨e, fun _ => rfl, processBlock_error hg⟩
      | ok gs => exact .inr ⟨l, b, gs, rfl, hb, hg, rfl, fun _ => rfl⟩

theorem blockDone_facts {o : NormOpts} {m : Machine} {t : List Char} {l : Line} (hl : Line.ofText t = .ok l) {b : Block}
    (hb : blockDone o m l.block = .ok b) : b.gcodes = l.block.gcodes ∧ ∀ w ∈ b.modalParams, wordClass w = none := by
  have hu := (line_block_ok hl).unused
  unfold blockDone at hb
  split_ifs at hb
  · cases hb
    exact ⟨rfl, validWords_unused m l.block hu⟩
  · cases hb
    exact ⟨rfl, hu⟩

/-- What is known about the gcodes in effect. -/
theorem effective_done {o : NormOpts} {m : Machine} {t : List Char} {l : Line} (hl : Line.ofText t = .ok l) {b : Block}
    (hb : blockDone o m l.block = .ok b) (hm : Sound m) {gs : List GCode} (hgs : m.blockModalGcodes b = .ok gs) :
    (∀ g ∈ gs, wordClass g.word = some g.cls) ∧ (∀ g ∈ gs, GOK g) ∧ Ordered gs ∧ (∀ g ∈ gs, g.ws = false) ∧
      execSort gs = gs ∧ m.processBlock b = m.processAll gs := by
  obtain ⟨h1, h2⟩ := blockDone_facts hl hb
  have hk := line_block_ok hl
  exact effective_block (h1 ▸ hk.ok) (h1 ▸ hk.cls) (h1 ▸ hk.ws) h2 hm.ok hm.named hgs

theorem sound_line (o : NormOpts) {m : Machine} (hm : Sound m) (t : List Char) : Sound (lineEffect o m t).1 := by
  rcases line_cases o m (fun _ => hm.named) t with ⟨e, -, h⟩ | ⟨l, b, gs, hl, hb, hgs, h, -⟩
  · rw [h]; exact hm
  · obtain ⟨e1, e2, -, -, -, e6⟩ := effective_done hl hb hm hgs
    rw [h, e6]
    exact Sound.all e2 e1 hm

theorem axes_line (o : NormOpts) {m : Machine} (hm : Sound m) (t : List Char) : (lineEffect o m t).1.axes = m.axes := by
  rcases line_cases o m (fun _ => hm.named) t with ⟨e, -, h⟩ | ⟨l, b, gs, hl, hb, hgs, h, -⟩
  · rw [h]
  · obtain ⟨e1, e2, -, -, -, e6⟩ := effective_done hl hb hm hgs
    rw [h, e6]
    exact congrArg Prod.fst (processAll_frozen e2 hm.wf)

/-! ## Without expansions -/

/-- Without `--canned_expand` the script gets to the end of a program exactly when executing the
lines does, fails with the same error where that fails, and leaves the machine in the same state,
whatever the other options are. -/
theorem C88_plain (o : NormOpts) (he : o.cannedExpand = false) (fuel : ℕ) (m : Machine)
    (hm : o.rmInvalid = true → Sound m) (ts : List (List Char)) :
    (o.loop fuel m ts).m = (linesEffect o m ts).1 ∧ (o.loop fuel m ts).status = endsAs (linesEffect o m ts).2 := by
  show Tracks _ _
  induction ts generalizing m with
  | nil => exact Tracks.nil m
  | cons t ts ih =>
    unfold NormOpts.loop linesEffect
    have h1 : Tracks (o.line fuel m t) (lineEffect o m t) := by
      rcases line_cases o m (fun h => (hm h).named) t with ⟨e, h1, h2⟩ | ⟨l, b, gs, -, -, -, h1, h2⟩
      · rw [h1, h2]; exact ⟨rfl, rfl⟩
      · rw [h1, h2, if_neg (by simp [he])]
        exact plainLine_tracks o m { l with block := b } gs
    have h2 : o.rmInvalid = true → Sound (lineEffect o m t).1 := fun h => sound_line o (hm h) t
    generalize o.line fuel m t = r at h1
    generalize lineEffect o m t = x at h1 h2
    obtain ⟨out, m1, s⟩ := r
    obtain ⟨m2, _ | e⟩ := x
    · obtain ⟨h3, h4⟩ := h1
      simp only [endsAs] at h3 h4
      subst h3 h4
      exact ⟨(ih m1 h2).1, (ih m1 h2).2⟩
    · obtain ⟨h3, h4⟩ := h1
      simp only [endsAs] at h3 h4
      subst h3 h4
      exact ⟨rfl, rfl⟩

/-! ## The finalizing lines -/

/-- The finalizing lines never fail. -/
theorem finish_tracks (o : NormOpts) {m : Machine} (hm : Sound m) (hx : xyz ⊆ m.axes) : Tracks (o.finish m) (m, none) := by
  have one : ∀ m gs c, Tracks (NormRes.put m (o.write gs [] c none)) (m, none) :=
    fun m gs c => Tracks.put (write_ok o _ _ (fun _ => rfl) _ _)
  have h1 : Tracks (o.finishComment m) (m, none) := by
    unfold NormOpts.finishComment; split_ifs
    · exact one _ _ _
    · exact Tracks.nil _
  have h2 : Tracks (o.finishAbsolute m) (m, none) := by
    unfold NormOpts.finishAbsolute; split_ifs
    · exact one _ _ _
    · exact Tracks.nil _
  have h3 : Tracks (o.finishSpindle m) (m, none) := by
    unfold NormOpts.finishSpindle; split_ifs
    · exact one _ _ _
    · exact Tracks.nil _
  have h4 : Tracks (o.finishXY m) (m, none) := by
    unfold NormOpts.finishXY; split_ifs
    · obtain ⟨h, hh⟩ := safeHeight_ok o hm hx
      rw [hh]
      exact (one _ _ _).andThen (F := fun m => (m, none)) (fun m => one _ _ _)
    · exact Tracks.nil _
  have h5 : Tracks (o.finishZ m) (m, none) := by
    unfold NormOpts.finishZ; split_ifs
    · exact one _ _ _
    · exact Tracks.nil _
  have step : ∀ {r : NormRes} {f : Machine → NormRes}, Tracks r (m, none) → Tracks (f m) (m, none) →
      Tracks (r.andThen f) (m, none) := by
    rintro ⟨out, m', s⟩ f ⟨k1, k2⟩ ⟨k3, k4⟩
    simp only [endsAs] at k1 k2
    subst k1 k2
    exact ⟨k3, k4⟩
  exact step (step (step (step h1 h2) h3) h4) h5

/-! ## Expansions -/

theorem sound_pos {m : Machine} (hm : Sound m) : ∃ p, m.pos = .ok p ∧ p.axes = m.axes ∧ p.WF := by
  refine ⟨_, pos_ok m hm.wf (not_badSys hm.dict), rfl, ?_⟩
  intro a ha
  simp [abs_outside m hm.wf a ha, off_outside m hm.wf a ha, sysOff_outside m hm.wf a ha]

theorem planeOf_sub {m : Machine} (hm : Sound m) : (planeOf m).isSub .planeSelect = true := by
  unfold planeOf
  cases h : m.mode.plane with
  | none => decide +kernel
  | some pl =>
    have hgr : pl.cls.group = some 2 := (hm.ok 2 pl h).1
    have := Cls.forall_of_all (p := fun c => !(c.group == some 2) || c.isSub .planeSelect) (by decide +kernel) pl.cls
    simpa [hgr] using this

/-- More passes change nothing about an expansion that ended. -/
theorem simplify_more {fuel : ℕ} {g : GCode} (hg : IsCycle g) {start : Position} (hz : Axis.Z ∈ start.axes)
    (hw : start.WF) {plane : Cls} {incr toR : Bool} {out : List GCode}
    (h : simplify fuel g start plane incr toR start.axes = (out, .done)) {fuel' : ℕ} (hf : fuel ≤ fuel') :
    simplify fuel' g start plane incr toR start.axes = (out, .done) := by
  have hxy : plane = .selectXYPlane := by
    apply xy_table
    by_contra hne
    unfold simplify at h
    rw [if_neg (by rw [hg.1]; simp), if_pos (by simpa using hne)] at h
    cases h
  subst hxy
  have hst := simplify_status fuel g hg start hw incr toR
  rw [h] at hst
  have hin : cannedInner fuel' g start incr toR = cannedInner fuel g start incr toR := by
    rw [inner_eq fuel' g hg, inner_eq fuel g hg]
    rcases Nat.eq_zero_or_pos (reps g) with hr | hr
    · rw [hr]; rfl
    refine (holes_fuel fuel' fuel g start incr toR _ _ _ hf ?_).1
    obtain ⟨-, segs, -, hl, hs⟩ := (holes_done fuel g start hz incr toR _ _ _ _).1 (Prod.ext rfl hst.symm)
    have hseg : 0 < segs.length := by omega
    obtain ⟨-, -, delta, dl, h3, h4, -⟩ :=
      (hole_done _ _ _ _ _ _ _ _ _).1 (hs 0 segs[0] (List.getElem?_eq_getElem hseg))
    intro _ delta' hd
    rw [h3] at hd
    cases hd
    rw [h4]
  rw [← h]
  unfold simplify
  rw [hin]

/-- Omitting repeated words does not fail on moves. -/
theorem omit_moves {gs : List GCode} (h : Moves gs) : ∀ {m : Machine}, Reader m → (omitFrom m gs).2 = .done := by
  induction gs with
  | nil => exact fun _ => rfl
  | cons g gs ih =>
    intro m hm
    obtain ⟨h1, h2, h3, -⟩ := h g (by simp)
    have hc := (isMove_params h3).1
    unfold omitFrom
    simp only
    set g' : GCode := if redundant m.mode g then { g with ws := true } else g with hg'
    have hg'c : g'.cls = g.cls ∧ g'.word = g.word ∧ g'.params = g.params := by
      rw [hg']; split_ifs <;> exact ⟨rfl, rfl, rfl⟩
    have k1 : GOK g' := by unfold GOK; rw [hg'c.1, hg'c.2.2]; exact h1
    have k2 : Named g' := by unfold Named; rw [hg'c.1, hg'c.2.1]; exact h2
    have k3 : g'.cls.isSub .cannedCycle = false := by rw [hg'c.1]; exact hc
    rw [processGcodes_single, process_after m hm.wf hm.dict g' k1 k3]
    exact ih (fun x hx => h x (by simp [hx])) (reader_after hm g' k1 k2 k3)

/-- How the printing of an expansion ends. -/
theorem omitGen_status (o : NormOpts) {r : Gen} (h : Moves r.1) : (o.omitGen r).2 = r.2 := by
  unfold NormOpts.omitGen
  split_ifs
  · rfl
  · have := omit_moves h (reader_null xyz)
    have e : omitFrom newNull r.1 = ((omitFrom newNull r.1).1, .done) := Prod.ext rfl this
    rw [e]
    rfl

theorem putExpansion_end (o : NormOpts) (fuel : ℕ) {m : Machine} (hm : Sound m) {g : GCode} (hg : IsCycle g)
    {p : Position} (hp : m.pos = .ok p) (hpa : p.axes = m.axes) (hpw : p.WF) :
    (o.putExpansion fuel m g).m = m ∧
      (o.putExpansion fuel m g).status = (simplify fuel g p (planeOf m) m.incremental false p.axes).2 := by
  unfold NormOpts.putExpansion
  rw [hp]
  simp only
  rw [putAll_eq]
  refine ⟨rfl, ?_⟩
  rw [show o.expansion fuel m p g = o.omitGen (simplify fuel g p (planeOf m) m.incremental false m.axes) from rfl, ← hpa]
  exact omitGen_status o (simplify_moves fuel g hg p hpw _ _ _)

/-- A cycle can be replaced exactly when its expansion ends. -/
theorem drillable_iff {m : Machine} (hm : Sound m) (hax : xyz ⊆ m.axes) {g : GCode} (hg : IsCycle g) {p : Position}
    (hp : m.pos = .ok p) (hpa : p.axes = m.axes) (hpw : p.WF) :
    (∃ fuel out, simplify fuel g p (planeOf m) m.incremental false p.axes = (out, .done)) ↔ Drillable m g := by
  rw [C53_success_partial g p hpw (by rw [hpa]; exact hax) (planeOf m) (planeOf_sub hm) hg.2 m.incremental false]
  unfold Drillable
  constructor
  · rintro ⟨-, h1, h2⟩; exact ⟨h1, p, hp, h2⟩
  · rintro ⟨h1, q, hq, h2⟩
    rw [hp] at hq
    cases hq
    exact ⟨hg.1, h1, h2⟩

theorem putProcess_tracks (o : NormOpts) (m : Machine) {gs : List GCode} (h : execSort gs = gs) :
    Tracks (o.putProcess m gs) (m.processAll gs) := by
  unfold NormOpts.putProcess
  by_cases hz : gs = []
  · rw [if_pos hz]; subst hz; exact Tracks.nil m
  · rw [if_neg hz]
    have h1 : Tracks (NormRes.put m (o.write gs)) (m, none) := Tracks.put (write_ok o _ _ (fun _ => rfl) _ _)
    have := h1.andThen (F := fun m => m.processGcodes gs []) (fun m => Tracks.ofM _)
    show Tracks _ _
    have e : Machine.andThen (m, none) (fun m => m.processGcodes gs []) = m.processAll gs := by
      show m.processGcodes gs [] = _
      rw [processGcodes_sorted, h]
    rw [← e]
    exact this

/-- The three pieces found by `split_gcodes`. -/
theorem split_first {gs : List GCode} {c : Cls} (hs : execSort gs = gs) :
    (∃ before g after, gs = before ++ g :: after ∧ (∀ x ∈ before, x.cls.isSub c = false) ∧ g.cls.isSub c = true ∧
      splitGcodes gs c true = (before, [g], after)) ∨
    ((∀ x ∈ gs, x.cls.isSub c = false) ∧ splitGcodes gs c true = (gs, [], [])) := by
  unfold splitGcodes
  simp only [if_true, hs]
  cases hi : gs.findIdx? (fun g => g.cls.isSub c) with
  | none =>
    right
    simp only [List.findIdx?_eq_none_iff] at hi
    exact ⟨fun x hx => by simpa using hi x hx, rfl⟩
  | some i =>
    left
    obtain ⟨h1, h2, h3⟩ := List.findIdx?_eq_some_iff_getElem.1 hi
    refine ⟨gs.take i, gs[i], gs.drop (i + 1), ?_, ?_, h2, ?_⟩
    · rw [← List.drop_eq_getElem_cons h1, List.take_append_drop]
    · intro x hx
      obtain ⟨j, hj, rfl⟩ := List.mem_iff_getElem.1 hx
      rw [List.getElem_take]
      simp only [List.length_take] at hj
      simpa using h3 j (by omega)
    · simp only
      rw [List.drop_eq_getElem_cons h1]
      rfl

/-- There is only one first. -/
theorem first_unique {α : Type} {q : α → Bool} {a b a' b' : List α} {x x' : α} (h : a ++ x :: b = a' ++ x' :: b')
    (ha : ∀ y ∈ a, q y = false) (hx : q x = true) (ha' : ∀ y ∈ a', q y = false) (hx' : q x' = true) :
    a = a' ∧ x = x' ∧ b = b' := by
  induction a generalizing a' with
  | nil =>
    cases a' with
    | nil => simpa using h
    | cons z a' =>
      simp only [List.nil_append, List.cons_append, List.cons.injEq] at h
      have := ha' z (by simp)
      rw [← h.1, hx] at this; cases this
  | cons z a ih =>
    cases a' with
    | nil =>
      simp only [List.nil_append, List.cons_append, List.cons.injEq] at h
      have := ha z (by simp)
      rw [h.1, hx'] at this; cases this
    | cons z' a' =>
      simp only [List.cons_append, List.cons.injEq] at h
      obtain ⟨h1, h2, h3⟩ := ih h.2 (fun y hy => ha y (by simp [hy])) (fun y hy => ha' y (by simp [hy]))
      exact ⟨by rw [h.1, h1], h2, h3⟩

/-- An execution in which the cycle is not reached, or can be replaced. -/
theorem expandLine_end (o : NormOpts) {m : Machine} (hm : Sound m) (hax : xyz ⊆ m.axes) {gs : List GCode}
    (hn : ∀ g ∈ gs, wordClass g.word = some g.cls) (hok : ∀ g ∈ gs, GOK g) (hs : execSort gs = gs)
    (c : Option Comment) :
    (∀ fuel, (o.expandLine fuel m gs c).status = .done → m.processAll gs = ((o.expandLine fuel m gs c).m, none) ∧
      ∃ before g after, gs = before ++ g :: after ∧ (∀ x ∈ before, x.cls.isSub .cannedCycle = false) ∧
        g.cls.isSub .cannedCycle = true ∧ Drillable (m.processAll before).1 g) ∧
    (∀ m', m.processAll gs = (m', none) → (∃ before g after, gs = before ++ g :: after ∧
        (∀ x ∈ before, x.cls.isSub .cannedCycle = false) ∧
        g.cls.isSub .cannedCycle = true ∧ Drillable (m.processAll before).1 g) →
      ∃ N out, ∀ fuel, N ≤ fuel → o.expandLine fuel m gs c = ⟨out, m', .done⟩) := by
  have hso : gs.Pairwise (fun a b => a.cls.order ≤ b.cls.order) := by
    have := (execSort_stable gs).2.1
    rw [hs] at this
    exact this
  rcases split_first (c := .cannedCycle) hs with ⟨before, g, after, e, hb, hg, hsp⟩ | ⟨h0, hsp⟩
  swap
  · have he : ∀ fuel, o.expandLine fuel m gs c = ⟨[], m, .raised .value⟩ := by
      intro fuel
      unfold NormOpts.expandLine
      rw [hsp]
    refine ⟨fun fuel h => (by rw [he] at h; cases h), fun m' _ h => ?_⟩
    obtain ⟨_, g, _, rfl, -, hg, -⟩ := h
    rw [h0 g (by simp)] at hg
    cases hg
  have hmb : ∀ x ∈ before, x ∈ gs := fun x hx => by rw [e]; simp [hx]
  have hmg : g ∈ gs := by rw [e]; simp
  have hcy := cycle_named (hn g hmg) hg
  have sb : execSort before = before := execSort_of_pairwise (hso.sublist (by rw [e]; exact List.sublist_append_left _ _))
  have sa : execSort after = after := execSort_of_pairwise (hso.sublist (by
    rw [e]; exact (List.sublist_cons_self g after).trans (List.sublist_append_right _ _)))
  have hm1 : Sound (m.processAll before).1 := Sound.all (fun x hx => hok x (hmb x hx)) (fun x hx => hn x (hmb x hx)) hm
  have hax1 : xyz ⊆ (m.processAll before).1.axes := by
    have : (m.processAll before).1.axes = m.axes :=
      congrArg Prod.fst (processAll_frozen (fun x hx => hok x (hmb x hx)) hm.wf)
    rw [this]; exact hax
  obtain ⟨p, hp, hpa, hpw⟩ := sound_pos hm1
  have hdr := drillable_iff hm1 hax1 hcy hp hpa hpw
  -- what comes after the expansion
  have htail : ∀ m1 : Machine, Tracks ((NormRes.ofM (m1.processGcodes [g] [])).andThen fun m =>
      (o.putProcess m after).andThen fun m => if c = none then ⟨[], m, .done⟩ else NormRes.put m (o.write [] [] c))
      (m1.processAll (g :: after)) := by
    intro m1
    have k1 : Tracks (NormRes.ofM (m1.processGcodes [g] [])) (m1.process g) := by
      rw [processGcodes_single]
      exact Tracks.ofM _
    have k2 := k1.andThen (F := fun m => Machine.andThen (m.processAll after) (fun m => (m, none)))
      (f := fun m => (o.putProcess m after).andThen fun m =>
        if c = none then ⟨[], m, .done⟩ else NormRes.put m (o.write [] [] c))
      (fun m => (putProcess_tracks o m sa).andThen (fun m => by
        split_ifs
        · exact Tracks.nil m
        · exact Tracks.put (write_ok o _ _ (fun _ => rfl) _ _)))
    have : Machine.andThen (m1.process g) (fun m => Machine.andThen (m.processAll after) (fun m => (m, none))) =
        m1.processAll (g :: after) := by
      rw [processAll]
      congr 1
      funext m''
      rcases m''.processAll after with ⟨_, _ | _⟩ <;> rfl
    rwa [this] at k2
  have hall : m.processAll gs = Machine.andThen (m.processAll before) (fun m => m.processAll (g :: after)) := by
    rw [e, processAll_append]
  have hfirst := putProcess_tracks o m sb
  have htail' : ∀ m1 : Machine, Tracks ((fun m : Machine => (NormRes.ofM (m.processGcodes [g] [])).andThen fun m =>
      (o.putProcess m after).andThen fun m => if c = none then ⟨[], m, .done⟩ else NormRes.put m (o.write [] [] c)) m1)
      (m1.processAll (g :: after)) := htail
  obtain ⟨ls, hls⟩ := write_ok o [] [] (fun _ => rfl) (some (.brackets ("expanded: ".toList ++ NormOpts.reprText g))) none
  have hexp : ∀ fuel, o.expandLine fuel m gs c = (o.putProcess m before).andThen fun m =>
      (NormRes.put m (o.write [] [] (some (.brackets ("expanded: ".toList ++ NormOpts.reprText g))))).andThen fun m =>
      (o.putExpansion fuel m g).andThen (fun m : Machine => (NormRes.ofM (m.processGcodes [g] [])).andThen fun m =>
      (o.putProcess m after).andThen fun m => if c = none then ⟨[], m, .done⟩ else NormRes.put m (o.write [] [] c)) := by
    intro fuel
    unfold NormOpts.expandLine
    rw [hsp]
  generalize (fun m : Machine => (NormRes.ofM (m.processGcodes [g] [])).andThen fun m =>
    (o.putProcess m after).andThen fun m => if c = none then ⟨[], m, .done⟩ else NormRes.put m (o.write [] [] c)) = T
    at hexp htail'
  have hpe := fun fuel => putExpansion_end o fuel hm1 hcy hp hpa hpw
  have hiff : (∃ before g after, gs = before ++ g :: after ∧ (∀ x ∈ before, x.cls.isSub .cannedCycle = false) ∧
      g.cls.isSub .cannedCycle = true ∧ Drillable (m.processAll before).1 g) ↔ Drillable (m.processAll before).1 g := by
    constructor
    · rintro ⟨before', g', after', e', h1, h2, h3⟩
      obtain ⟨rfl, rfl, -⟩ := first_unique (q := fun x => x.cls.isSub .cannedCycle) (e ▸ e') hb hg h1 h2
      exact h3
    · exact fun h => ⟨before, g, after, e, hb, hg, h⟩
  rw [hiff, hall]
  simp only [hexp]
  generalize o.putProcess m before = r at hfirst
  generalize m.processAll before = x at hfirst hm1 hax1 hp hpa hdr hpe
  obtain ⟨out, m1, s⟩ := r
  obtain ⟨m2, _ | er⟩ := x
  swap
  · obtain ⟨k1, k2⟩ := hfirst
    simp only [endsAs] at k1 k2
    subst k1 k2
    exact ⟨fun fuel h => (by cases h), fun m' h => (by cases h)⟩
  obtain ⟨k1, k2⟩ := hfirst
  simp only [endsAs] at k1 k2
  subst k1 k2
  simp only [NormRes.andThen, NormRes.put, hls, Machine.andThen]
  simp only at hpe hdr hp hpa
  obtain ⟨t1, t2⟩ := htail' m1
  constructor
  · intro fuel h
    obtain ⟨p1, p2⟩ := hpe fuel
    generalize hq : o.putExpansion fuel m1 g = q at p1 p2 h
    obtain ⟨qo, qm, qs⟩ := q
    simp only at p1 p2
    subst p1
    cases qs with
    | done =>
      refine ⟨?_, hdr.1 ⟨fuel, _, Prod.ext rfl p2.symm⟩⟩
      simp only at h ⊢
      rw [h] at t2
      refine Prod.ext t1.symm ?_
      cases hx : (qm.processAll (g :: after)).2 with
      | none => rfl
      | some e => rw [hx] at t2; cases t2
    | raised e => simp at h
    | running => simp at h
  · intro m' h hd
    obtain ⟨N, mv, hN⟩ := hdr.2 hd
    rw [h] at t1 t2
    have hfix : ∀ fuel, N ≤ fuel → o.putExpansion fuel m1 g = ⟨(o.putExpansion N m1 g).out, m1, .done⟩ := by
      intro fuel hf
      have e1 := simplify_more hcy (by rw [hpa]; exact hax1 (by decide)) hpw hN hf
      rw [hpa] at e1 hN
      unfold NormOpts.putExpansion
      rw [hp]
      simp only
      have e2 : o.expansion fuel m1 p g = o.omitGen (mv, .done) := by rw [← e1]; rfl
      have e3 : o.expansion N m1 p g = o.omitGen (mv, .done) := by rw [← hN]; rfl
      have e4 : (o.omitGen (mv, .done)).2 = .done := omitGen_status o (r := (mv, .done)) (by
        have := simplify_moves N g hcy p hpw (planeOf m1) m1.incremental false
        rw [hpa, hN] at this
        exact this)
      rw [e2, e3, putAll_eq, e4]
    refine ⟨N, out ++ (ls ++ ((o.putExpansion N m1 g).out ++ (T m1).out)), fun fuel hf => ?_⟩
    rw [hfix fuel hf]
    simp only
    simp only [endsAs] at t1 t2
    rw [t1, t2]

theorem line_end (o : NormOpts) (he : o.cannedExpand = true) {m : Machine} (hm : Sound m) (hax : xyz ⊆ m.axes)
    (t : List Char) :
    (∀ fuel, (o.line fuel m t).status = .done → lineEffect o m t = ((o.line fuel m t).m, none) ∧ LineDrills o m t) ∧
    (∀ m', lineEffect o m t = (m', none) → LineDrills o m t →
      ∃ N out, ∀ fuel, N ≤ fuel → o.line fuel m t = ⟨out, m', .done⟩) := by
  rcases line_cases o m (fun _ => hm.named) t with ⟨e, hline, h⟩ | ⟨l, b, gs, hl, hb, hgs, h, hline⟩
  · exact ⟨fun fuel hd => (by rw [hline] at hd; cases hd), fun m' h' => (by rw [h] at h'; cases h')⟩
  obtain ⟨e1, e2, -, -, e5, e6⟩ := effective_done hl hb hm hgs
  rw [h]
  by_cases hc : ∃ g ∈ gs, g.word ∈ o.cannedCodes
  · have hln : ∀ fuel, o.line fuel m t = o.expandLine fuel m gs l.comment := by
      intro fuel
      rw [hline, if_pos]
      obtain ⟨g, h1, h2⟩ := hc
      rw [he, Bool.true_and, List.any_eq_true]
      exact ⟨g, h1, decide_eq_true h2⟩
    simp only [hln]
    obtain ⟨k1, k2⟩ := expandLine_end o hm hax e1 e2 e5 l.comment
    rw [e6]
    constructor
    · intro fuel hd
      obtain ⟨k3, k4⟩ := k1 fuel hd
      refine ⟨k3, ?_⟩
      intro l' b' gs' hl' hb' hgs' _
      rw [hl] at hl'; cases hl'
      rw [hb] at hb'; cases hb'
      rw [hgs] at hgs'; cases hgs'
      exact k4
    · exact fun m' h1 h2 => k2 m' h1 (h2 l b gs hl hb hgs hc)
  · have hln : ∀ fuel, o.line fuel m t = o.plainLine m { l with block := b } gs := by
      intro fuel
      rw [hline, if_neg]
      rw [he, Bool.true_and, List.any_eq_true]
      rintro ⟨g, h1, h2⟩
      exact hc ⟨g, h1, of_decide_eq_true h2⟩
    simp only [hln]
    obtain ⟨k1, k2⟩ := plainLine_tracks o m { l with block := b } gs
    constructor
    · intro fuel hd
      rw [hd] at k2
      refine ⟨Prod.ext k1.symm ?_, ?_⟩
      · show (m.processBlock b).2 = none
        cases hx : (m.processBlock b).2 with
        | none => rfl
        | some e => rw [show (m.processBlock ({ l with block := b } : Line).block).2 = some e from hx] at k2; cases k2
      · intro l' b' gs' hl' hb' hgs' hc'
        rw [hl] at hl'; cases hl'
        rw [hb] at hb'; cases hb'
        rw [hgs] at hgs'; cases hgs'
        exact absurd hc' hc
    · intro m' h1 _
      refine ⟨0, (o.plainLine m { l with block := b } gs).out, fun _ _ => ?_⟩
      have h1' : m.processBlock ({ l with block := b } : Line).block = (m', none) := h1
      rw [h1'] at k1 k2
      generalize o.plainLine m { l with block := b } gs = r at k1 k2
      obtain ⟨ro, rm, rs⟩ := r
      simp only [endsAs] at k1 k2
      subst k1 k2
      rfl

/-- With `--canned_expand` the script gets to the end of a program exactly when executing the lines
does and every cycle on a line that is to be expanded can be replaced where it is reached; the
machine is then left in the same state, and how many passes a drilled hole may take makes no
difference from some number on. -/
theorem C88_expand (o : NormOpts) (he : o.cannedExpand = true) (m : Machine) (hm : Sound m) (hax : xyz ⊆ m.axes)
    (ts : List (List Char)) :
    (∀ fuel, (o.loop fuel m ts).status = .done →
      linesEffect o m ts = ((o.loop fuel m ts).m, none) ∧ LinesDrill o m ts) ∧
    (∀ m', linesEffect o m ts = (m', none) → LinesDrill o m ts →
      ∃ N out, ∀ fuel, N ≤ fuel → o.loop fuel m ts = ⟨out, m', .done⟩) := by
  induction ts generalizing m with
  | nil => exact ⟨fun fuel _ => ⟨rfl, trivial⟩, fun m' h _ => ⟨0, [], fun fuel _ => by cases h; rfl⟩⟩
  | cons t ts ih =>
    obtain ⟨k1, k2⟩ := line_end o he hm hax t
    have hm1 := sound_line o hm t
    have hax1 : xyz ⊆ (lineEffect o m t).1.axes := by rw [axes_line o hm t]; exact hax
    constructor
    · intro fuel hd
      unfold NormOpts.loop at hd ⊢
      have k1' := k1 fuel
      generalize o.line fuel m t = r at hd k1'
      obtain ⟨out, m1, s⟩ := r
      cases s with
      | done =>
        obtain ⟨h1, h2⟩ := k1' rfl
        rw [h1] at hm1 hax1
        obtain ⟨h3, h4⟩ := (ih m1 hm1 hax1).1 fuel hd
        unfold linesEffect LinesDrill
        rw [h1]
        exact ⟨h3, h2, h4⟩
      | raised e => cases hd
      | running => cases hd
    · intro m' h hd
      unfold linesEffect at h
      obtain ⟨hd1, hd2⟩ := hd
      generalize hx : lineEffect o m t = x at h hm1 hax1 hd2 k2
      obtain ⟨m1, _ | e⟩ := x
      · obtain ⟨N1, out1, h1⟩ := k2 m1 rfl hd1
        obtain ⟨N2, out2, h2⟩ := (ih m1 hm1 hax1).2 m' h hd2
        refine ⟨max N1 N2, out1 ++ out2, fun fuel hf => ?_⟩
        unfold NormOpts.loop
        rw [h1 fuel (le_trans (le_max_left _ _) hf)]
        unfold NormRes.andThen
        simp only
        rw [h2 fuel (le_trans (le_max_right _ _) hf)]
      · cases h

theorem sound_lines (o : NormOpts) (ts : List (List Char)) :
    ∀ {m : Machine}, Sound m → Sound (linesEffect o m ts).1 ∧ (linesEffect o m ts).1.axes = m.axes := by
  induction ts with
  | nil => exact fun h => ⟨h, rfl⟩
  | cons t ts ih =>
    intro m hm
    have h1 := sound_line o hm t
    have h2 := axes_line o hm t
    unfold linesEffect
    generalize lineEffect o m t = x at h1 h2
    obtain ⟨m1, _ | e⟩ := x
    · obtain ⟨h3, h4⟩ := ih h1
      exact ⟨h3, h4.trans h2⟩
    · exact ⟨h1, h2⟩

/-- The finalizing lines never change how the script ends, nor the state of the machine. -/
theorem C88_run (o : NormOpts) (fuel : ℕ) (md : Mode) (hm : Sound (o.machine md)) (ts : List (List Char)) :
    (o.run fuel md ts).status = (o.loop fuel (o.machine md) ts).status ∧
      (o.run fuel md ts).m = (o.loop fuel (o.machine md) ts).m := by
  have hend : (o.loop fuel (o.machine md) ts).status = .done →
      Sound (o.loop fuel (o.machine md) ts).m ∧ (o.loop fuel (o.machine md) ts).m.axes = xyz := by
    intro hd
    have hl := sound_lines o ts hm
    by_cases he : o.cannedExpand = true
    · rw [((C88_expand o he _ hm (Finset.Subset.refl _) ts).1 fuel hd).1] at hl
      exact hl
    · rw [(C88_plain o (by simpa using he) fuel _ (fun _ => hm) ts).1]
      exact hl
  unfold NormOpts.run
  generalize o.loop fuel (o.machine md) ts = r at hend
  obtain ⟨out, m1, s⟩ := r
  cases s with
  | done =>
    obtain ⟨h1, h2⟩ := hend rfl
    simp only at h2
    obtain ⟨h3, h4⟩ := finish_tracks o h1 (by rw [h2])
    exact ⟨h4, h3⟩
  | raised e => exact ⟨rfl, rfl⟩
  | running => exact ⟨rfl, rfl⟩

/-- A drilling cycle with a dwell, G82, is never expanded, although it is listed by default. -/
theorem C88_dwell (o : NormOpts) (fuel : ℕ) {m : Machine} (hm : Sound m) (hax : xyz ⊆ m.axes) {g : GCode}
    (hg : g.cls = .drillingCycleDwell) (hr : reps g ≠ 0) : (o.putExpansion fuel m g).status ≠ .done := by
  have hcy : IsCycle g := by unfold IsCycle; rw [hg]; decide +kernel
  obtain ⟨p, hp, hpa, hpw⟩ := sound_pos hm
  rw [(putExpansion_end o fuel hm hcy hp hpa hpw).2]
  intro hd
  obtain ⟨-, q, -, h | ⟨-, -, h, -⟩⟩ := (drillable_iff hm hax hcy hp hpa hpw).1 ⟨fuel, _, Prod.ext rfl hd⟩
  · exact hr h
  · exact h hg

/-! ## Cases -/

/-- Not every option changes what is executed: all lines of the sample get through, also with words
taken out and gcodes left out. -/
example : (linesEffect { rmGcodes := [⟨'G', .num 1⟩], full := true, singles := true } newNull expandSample).2 = none ∧
    (({ rmGcodes := [⟨'G', .num 1⟩], full := true, singles := true } : NormOpts).loop 0 newNull expandSample).status
      = .done := by
  have h : (linesEffect { rmGcodes := [⟨'G', .num 1⟩], full := true, singles := true } newNull expandSample).2 = none := by
    decide +kernel
  refine ⟨h, ?_⟩
  rw [(C88_plain _ rfl 0 newNull (fun h => by cases h) expandSample).2, h]
  rfl

/-- A word that nothing accepts ends the run where it is reached, with the error of the execution;
not so with `--rm_invalid_modal`, unless a letter is then still there twice. -/
example :
    (({} : NormOpts).loop 0 newNull ["G0 X1".toList, "Y2 I3".toList]).status = .raised .invalidState ∧
    (({ rmInvalid := true } : NormOpts).loop 0 newNull ["G0 X1".toList, "Y2 I3".toList]).status = .done ∧
    (({ rmInvalid := true } : NormOpts).loop 0 newNull ["G0 X1".toList, "Y2 Y3".toList]).status = .raised .param := by
  refine ⟨(C88_plain _ rfl 0 newNull (fun h => by cases h) _).2.trans ?_,
    (C88_plain _ rfl 0 newNull (fun _ => (reader_null xyz).sound) _).2.trans ?_,
    (C88_plain _ rfl 0 newNull (fun _ => (reader_null xyz).sound) _).2.trans ?_⟩ <;> decide +kernel

/-- The sample with two kinds of cycles: what is shown with 20 passes allowed is shown with more. -/
example : ∃ N out, ∀ fuel, N ≤ fuel → expandOpts.loop fuel newNull expandSample =
    ⟨out, (expandOpts.loop 20 newNull expandSample).m, .done⟩ := by
  have hd : (expandOpts.loop 20 newNull expandSample).status = .done := by decide +kernel
  obtain ⟨k1, k2⟩ := C88_expand expandOpts rfl newNull (reader_null xyz).sound (Finset.Subset.refl _) expandSample
  exact k2 _ (k1 20 hd).1 (k1 20 hd).2

/-- The whole script on it, with all final actions. -/
example := C88_run { expandOpts with zeroXY := true, zeroZ := true, spindleOff := true } 20 Mode.null
  (reader_null xyz).sound expandSample

/-- A line with a listed gcode whose first cycle, if any, dwells. -/
def dwellsB (o : NormOpts) (m : Machine) (t : List Char) : Bool :=
  match Line.ofText t with
  | .error _ => false
  | .ok l =>
    match blockDone o m l.block with
    | .error _ => false
    | .ok b =>
      match m.blockModalGcodes b with
      | .error _ => false
      | .ok gs => gs.any (fun g => decide (g.word ∈ o.cannedCodes)) &&
          (match gs.find? (fun g => g.cls.isSub .cannedCycle) with
            | none => true
            | some g => g.cls == .drillingCycleDwell && reps g != 0)

theorem dwellsB_sound {o : NormOpts} {m : Machine} {t : List Char} (h : dwellsB o m t = true) : ¬ LineDrills o m t := by
  intro hd
  unfold dwellsB at h
  cases hl : Line.ofText t with
  | error e => rw [hl] at h; cases h
  | ok l =>
    rw [hl] at h
    simp only at h
    cases hb : blockDone o m l.block with
    | error e => rw [hb] at h; cases h
    | ok b =>
      rw [hb] at h
      simp only at h
      cases hg : m.blockModalGcodes b with
      | error e => rw [hg] at h; cases h
      | ok gs =>
        rw [hg] at h
        simp only [Bool.and_eq_true, List.any_eq_true, decide_eq_true_eq] at h
        obtain ⟨before, g, after, rfl, h1, h2, -, p, -, h3⟩ := hd l b gs hl hb hg h.1
        have hf : (before ++ g :: after).find? (fun g => g.cls.isSub .cannedCycle) = some g := by
          rw [List.find?_append, List.find?_eq_none.2 (fun x hx => by rw [h1 x hx]; simp)]
          simp [h2]
        have h4 := h.2
        rw [hf] at h4
        simp only [Bool.and_eq_true, beq_iff_eq, bne_iff_ne] at h4
        rcases h3 with h3 | ⟨-, -, h3, -⟩
        · exact h4.2 h3
        · exact h3 h4.1

/-- **C88** A program that can be executed is not always one the script gets through: G82, in the
default list, is never expanded, and a listed gcode on a line without a cycle ends the run too. -/
theorem C88_refuted :
    ∃ t₁ t₂ : List Char, (readLines newNull [t₁]).2 = none ∧ (readLines newNull [t₂]).2 = none ∧
      ∀ fuel, (({ cannedExpand := true, cannedCodes := [⟨'G', .num 82⟩] } : NormOpts).loop fuel newNull [t₁]).status ≠ .done ∧
        (({ cannedExpand := true, cannedCodes := [⟨'G', .num 80⟩] } : NormOpts).loop fuel newNull [t₂]).status ≠ .done := by
  refine ⟨"G17 G82 X1 Y1 Z-1 R1 P1".toList, "G80".toList, by decide +kernel, by decide +kernel, fun fuel => ⟨?_, ?_⟩⟩
  · intro hd
    exact dwellsB_sound (by decide +kernel) ((C88_expand _ rfl newNull (reader_null xyz).sound (Finset.Subset.refl _) _).1
      fuel hd).2.1
  · intro hd
    exact dwellsB_sound (by decide +kernel) ((C88_expand _ rfl newNull (reader_null xyz).sound (Finset.Subset.refl _) _).1
      fuel hd).2.1

/-- The cycle of the first of these programs. -/
example (o : NormOpts) (fuel : ℕ) :
    (o.putExpansion fuel newNull ⟨.drillingCycleDwell, ⟨'G', .num 82⟩, [⟨'X', .num 1⟩, ⟨'Z', .num (-1)⟩], false⟩).status
      ≠ .done :=
  C88_dwell o fuel (reader_null xyz).sound (Finset.Subset.refl _) rfl (by decide +kernel)

end Pygcode
