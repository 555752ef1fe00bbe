import Verif.Props.Abs2Rel
import Verif.Props.Order
import Verif.Lemmas.Reread

/-!
# Omitting redundant motion words (C47)
-/

namespace Pygcode
open Props Machine Spec

/-! ## Specification -/

/-- Lines read one after the other, up to the first exception. -/
def readLines (m : Machine) : List (List Char) → MRes
  | [] => (m, none)
  | t :: ts => andThen (m.processStr t) (fun m' => readLines m' ts)

/-- Two machines that differ at most in how their range is stored for axes they do not have. -/
structure SameState (a b : Machine) : Prop where
  axes : a.axes = b.axes
  ignore : a.ignoreInvalid = b.ignoreInvalid
  mode : a.mode = b.mode
  state : a.state = b.state
  abs : a.absPos = b.absPos
  lo : ∀ x ∈ a.axes, a.rangeMin.val x = b.rangeMin.val x
  hi : ∀ x ∈ a.axes, a.rangeMax.val x = b.rangeMax.val x

/-- A machine as it comes from its constructor and the processing of gcodes. -/
structure Reader (m : Machine) : Prop where
  wf : m.WF
  ok : ModeOK m.mode
  named : ModeAll Named m.mode
  noWs : ModeAll (fun g => g.ws = false) m.mode
  sync : Synced m
  dict : ∃ f, m.state.systems = .dict f
  within : ∀ x ∈ m.axes, m.rangeMin.val x ≤ m.absPos.val x ∧ m.absPos.val x ≤ m.rangeMax.val x

/-- A gcode of the stream: complete, printable exactly, not a canned cycle. -/
structure PlainCode (g : GCode) : Prop where
  gok : GOK g
  named : Named g
  noWs : g.ws = false
  words : ∀ w ∈ g.word :: g.params, PlainWord w
  notCanned : g.cls.isSub .cannedCycle = false

/-! ## Tables -/

theorem plain_table (c : Cls) (h : c.isSub .cannedCycle = false) :
    c.proc ≠ .canned ∧ (c.group = some 1 → c.modalParams = []) ∧
      (c.group = some 1 → ∀ l ∈ c.params, l ∉ ['G', 'M', 'F', 'S', 'T', 'N', 'O']) := by
  have := Cls.forall_of_all (p := fun c => c.isSub .cannedCycle || (c.proc != .canned &&
    (c.group != some 1 || c.modalParams == []) &&
    (c.group != some 1 || c.params.all (fun l => !(['G', 'M', 'F', 'S', 'T', 'N', 'O'].contains l)))))
    (by decide +kernel) c
  simp only [h, Bool.false_or, Bool.and_eq_true, Bool.or_eq_true, bne_iff_ne, beq_iff_eq, ne_eq,
    List.all_eq_true, Bool.not_eq_true', List.contains_eq_mem, decide_eq_false_iff_not] at this
  obtain ⟨⟨h1, h2⟩, h4⟩ := this
  exact ⟨h1, fun hg => h2.resolve_left (fun h => h hg),
    fun hg => h4.resolve_left (fun h => h hg)⟩

theorem wordClass_param (c : Cls) (h : c.isSub .cannedCycle = false) (hg : c.group = some 1) (w : Word)
    (hw : w.letter ∈ c.params) : wordClass w = none := by
  have := (plain_table c h).2.2 hg w.letter hw
  unfold wordClass wordClassE lookupIn
  rw [if_pos]
  simp only [Bool.not_false, Bool.true_and, Bool.not_eq_true', List.contains_eq_mem, decide_eq_false_iff_not]
  exact this

/-! ## Processing a plain gcode -/

theorem not_badSys {m : Machine} (h : ∃ f, m.state.systems = .dict f) : ¬ m.BadSys := by
  obtain ⟨f, hf⟩ := h
  rintro ⟨h1, -⟩
  rw [hf] at h1; cases h1

/-- The mode after a gcode. -/
def modeAfter (md : Mode) (g : GCode) : Mode :=
  if g.cls.proc = .cancel then Function.update (setIn md g) 1 none else setIn md g

/-- The machine after a plain gcode. -/
def after (m : Machine) (g : GCode) : Machine :=
  match g.cls.proc with
  | .motion => (m.withMode (setIn m.mode g)).goto ((m.withMode (setIn m.mode g)).target (coords m.axes g))
  | .rapid => (m.withMode (setIn m.mode g)).goto ((m.withMode (setIn m.mode g)).target (coords m.axes g))
  | .cancel => { m.withMode (setIn m.mode g) with mode := Function.update (setIn m.mode g) 1 none }
  | _ => m.withMode (setIn m.mode g)

theorem process_after (m : Machine) (hm : m.WF) (hd : ∃ f, m.state.systems = .dict f) (g : GCode) (hg : GOK g)
    (hc : g.cls.isSub .cannedCycle = false) : m.process g = (after m g, none) := by
  rw [process_eq m g hg]
  have hwf := withMode_wf m hm (setIn m.mode g)
  have hb : ¬ (m.withMode (setIn m.mode g)).BadSys := not_badSys hd
  have hmv := move_ok _ hwf hb (coords m.axes g) (coords_nodup m.axes g hg) (coords_axes m.axes g)
  unfold effect after
  cases hp : g.cls.proc with
  | nothing => rfl
  | motion => exact hmv
  | rapid => exact hmv
  | cancel => rfl
  | canned => exact absurd hp (plain_table _ hc).1

theorem target_outside (m : Machine) (hm : m.WF) (g : GCode) (a : Axis) (ha : a ∉ m.axes) :
    m.target (coords m.axes g) a = 0 := by
  unfold target
  rw [coords_lookup, if_neg ha]
  exact abs_outside m hm a ha

theorem after_mode (m : Machine) (g : GCode) : (after m g).mode = modeAfter m.mode g := by
  unfold after modeAfter
  cases hp : g.cls.proc <;> simp <;> rfl

theorem after_state (m : Machine) (g : GCode) : (after m g).state = (m.withMode (setIn m.mode g)).state := by
  unfold after
  cases hp : g.cls.proc <;> rfl

theorem modeAll_after (P : GCode → Prop) (hP : ∀ g, P g → P (copyOf g)) (md : Mode) (h : ModeAll P md) (g : GCode)
    (hg : P (copyOf g)) : ModeAll P (modeAfter md g) := by
  have h1 : ModeAll P (setIn md g) := by
    intro k x hx
    unfold setIn at hx
    cases hgr : g.cls.group with
    | none => rw [hgr] at hx; exact h k x hx
    | some j =>
      rw [hgr] at hx; simp only at hx
      by_cases hk : k = j
      · subst hk; rw [Function.update_self] at hx; cases hx; exact hg
      · rw [Function.update_of_ne hk] at hx; exact h k x hx
  unfold modeAfter
  split_ifs
  · intro k x hx
    by_cases hk : k = 1
    · subst hk; rw [Function.update_self] at hx; cases hx
    · rw [Function.update_of_ne hk] at hx; exact h1 k x hx
  · exact h1

theorem reader_after {m : Machine} (h : Reader m) (g : GCode) (hg : GOK g) (hn : Named g)
    (hc : g.cls.isSub .cannedCycle = false) : Reader (after m g) := by
  have hwf := withMode_wf m h.wf (setIn m.mode g)
  have hpr := process_after m h.wf h.dict g hg hc
  have hwf' : (after m g).WF := by
    have := (path_process m h.wf g hg).wf h.wf
    rwa [hpr] at this
  refine ⟨hwf', ?_, ?_, ?_, ?_, ?_, ?_⟩
  · have := kept_ok.process m h.wf g hg trivial h.ok
    rwa [hpr] at this
  · rw [after_mode]; exact modeAll_after Named (fun _ h => h) _ h.named g hn
  · rw [after_mode]; exact modeAll_after (fun g => g.ws = false) (fun _ _ => rfl) _ h.noWs g rfl
  · have hs := withMode_synced m (setIn m.mode g)
    intro x hx
    have h12 : (after m g).mode.coordSystem = Mode.coordSystem (setIn m.mode g) := by
      rw [after_mode]
      unfold modeAfter Mode.coordSystem
      split_ifs
      · rw [Function.update_of_ne (by decide)]
      · rfl
    rw [h12] at hx
    rw [after_state]
    exact hs x hx
  · rw [after_state]; exact h.dict
  · intro x hx
    unfold after at hx ⊢
    cases hp : g.cls.proc <;> rw [hp] at hx <;> simp only at hx ⊢
    all_goals first
      | exact h.within x hx
      | (have e : x ∈ m.axes := hx
         show (if x ∈ m.axes then _ else _) ≤ _ ∧ _ ≤ (if x ∈ m.axes then _ else _)
         rw [if_pos e, if_pos e]
         exact ⟨min_le_left _ _, le_max_left _ _⟩)

/-- The same gcode takes machines in the same state to the same state. -/
theorem same_after {a b : Machine} (h : SameState a b) (g : GCode) : SameState (after a g) (after b g) := by
  obtain ⟨h1, h2, h3, h4, h5, h6, h7⟩ := h
  obtain ⟨ax, ig, md, st, ab, lo, hi⟩ := a
  obtain ⟨ax', ig', md', st', ab', lo', hi'⟩ := b
  simp only at h1 h2 h3 h4 h5 h6 h7
  subst h1 h2 h3 h4 h5
  unfold after
  cases hp : g.cls.proc with
  | nothing => exact ⟨rfl, rfl, rfl, rfl, rfl, h6, h7⟩
  | cancel => exact ⟨rfl, rfl, rfl, rfl, rfl, h6, h7⟩
  | canned => exact ⟨rfl, rfl, rfl, rfl, rfl, h6, h7⟩
  | motion =>
    refine ⟨rfl, rfl, rfl, rfl, rfl, ?_, ?_⟩
    · intro x hx
      have e : x ∈ ax := hx
      show (if x ∈ ax then _ else _) = (if x ∈ ax then _ else _)
      rw [if_pos e, if_pos e]
      show min _ (lo.val x) = min _ (lo'.val x)
      rw [h6 x hx]
      rfl
    · intro x hx
      have e : x ∈ ax := hx
      show (if x ∈ ax then _ else _) = (if x ∈ ax then _ else _)
      rw [if_pos e, if_pos e]
      show max _ (hi.val x) = max _ (hi'.val x)
      rw [h7 x hx]
      rfl
  | rapid =>
    refine ⟨rfl, rfl, rfl, rfl, rfl, ?_, ?_⟩
    · intro x hx
      have e : x ∈ ax := hx
      show (if x ∈ ax then _ else _) = (if x ∈ ax then _ else _)
      rw [if_pos e, if_pos e]
      show min _ (lo.val x) = min _ (lo'.val x)
      rw [h6 x hx]
      rfl
    · intro x hx
      have e : x ∈ ax := hx
      show (if x ∈ ax then _ else _) = (if x ∈ ax then _ else _)
      rw [if_pos e, if_pos e]
      show max _ (hi.val x) = max _ (hi'.val x)
      rw [h7 x hx]
      rfl

theorem SameState.trans {a b c : Machine} (h : SameState a b) (h' : SameState b c) : SameState a c :=
  ⟨h.axes.trans h'.axes, h.ignore.trans h'.ignore, h.mode.trans h'.mode, h.state.trans h'.state,
    h.abs.trans h'.abs, fun x hx => (h.lo x hx).trans (h'.lo x (h.axes ▸ hx)),
    fun x hx => (h.hi x hx).trans (h'.hi x (h.axes ▸ hx))⟩

theorem SameState.rfl' (a : Machine) : SameState a a := ⟨rfl, rfl, rfl, rfl, rfl, fun _ _ => rfl, fun _ _ => rfl⟩

/-- A motion gcode without parameters that is already the mode changes nothing. -/
theorem still_after {m : Machine} (h : Reader m) (g : GCode) (hgr : g.cls.group = some 1)
    (hc : g.cls.isSub .cannedCycle = false) (hcan : g.cls.proc ≠ .cancel) (hp : g.params = []) (x : GCode)
    (hx : m.mode 1 = some x) (hxc : x.cls = g.cls) (hxw : x.word = g.word) : SameState (after m g) m := by
  have hpar : x.params = [] := C37_plain m.mode h.ok x hx (by rw [hxc]; exact (plain_table _ hc).2.1 hgr)
  have hxe : x = copyOf g := by
    have hws := h.noWs 1 x hx
    obtain ⟨c, w, p, s⟩ := x
    simp only at hxc hxw hpar hws
    subst hxc hxw hpar hws
    unfold copyOf
    rw [hp]; rfl
  have hset : setIn m.mode g = m.mode := by
    unfold setIn
    rw [hgr]
    funext k
    simp only [Function.update_apply]
    split_ifs with hk
    · rw [hk, hx, hxe]
    · rfl
  have hwm : m.withMode (setIn m.mode g) = m := by
    rw [hset]
    cases hcs : m.mode.coordSystem with
    | none => unfold withMode; simp only [hcs]
    | some y => unfold withMode; simp only [hcs, ← h.sync y hcs]
  have hcs : coords m.axes g = [] := by unfold coords; rw [hp]; rfl
  have htar : m.target (coords m.axes g) = m.absPos.val := by
    funext a; rw [hcs]; rfl
  have hgo : SameState (m.goto (m.target (coords m.axes g))) m := by
    rw [htar]
    refine ⟨rfl, rfl, rfl, rfl, ?_, ?_, ?_⟩
    · have := h.wf.abs
      show (⟨m.axes, m.absPos.unit, m.absPos.val⟩ : Position) = m.absPos
      rw [← this]
    · intro a ha
      simp only [goto] at ha ⊢
      rw [if_pos ha]
      exact min_eq_right (h.within a ha).1
    · intro a ha
      simp only [goto] at ha ⊢
      rw [if_pos ha]
      exact max_eq_right (h.within a ha).2
  unfold after
  rw [hwm]
  cases hpr : g.cls.proc with
  | nothing => exact SameState.rfl' m
  | motion => exact hgo
  | rapid => exact hgo
  | cancel => exact absurd hpr hcan
  | canned => exact SameState.rfl' m

/-! ## Reading the printed lines -/

theorem canon_facts {g : GCode} (h : PlainCode g) :
    GOK (canon g) ∧ Named (canon g) ∧ (canon g).cls = g.cls ∧ (canon g).word = g.word ∧
      ((canon g).params = [] ↔ g.params = []) := by
  have hp := sortedParams_perm g
  refine ⟨⟨?_, ?_⟩, h.named, rfl, rfl, ?_⟩
  · exact (hp.map Word.letter).nodup_iff.2 h.gok.1
  · exact fun p hm => h.gok.2 p (hp.mem_iff.1 hm)
  · show g.sortedParams = [] ↔ _
    constructor
    · intro h0; rw [h0] at hp; exact List.nil_perm.1 hp
    · intro h0; rw [h0] at hp; exact List.perm_nil.1 hp

/-- The line printed for a plain gcode executes it. -/
theorem read_plain (m : Machine) (g : GCode) (h : PlainCode g) : m.processStr g.str = m.process (canon g) := by
  have := line_reread [g] [] (by simpa using (show wordClass g.word = some g.cls from h.named)) (by simpa using h.gok) (List.pairwise_singleton _ _)
    (by simpa using h.noWs) (by simp) (by simp) (by
      intro w hw
      simp only [List.flatMap_cons, List.flatMap_nil, List.append_nil] at hw
      exact h.words w hw) (by
      rintro ⟨i, j, a, b, hij, -, hb, -⟩
      have : j < 1 := by
        by_contra hj
        rw [List.getElem?_eq_none (by simp; omega)] at hb; cases hb
      omega)
  simp only [List.map_nil, List.append_nil, List.map_cons, joinWith] at this
  unfold processStr
  rw [this]
  exact processGcodes_single m (canon g)

theorem noSpecial_blank (n : ℕ) : NoSpecial (List.replicate n ' ') := by
  unfold NoSpecial
  simp only [List.mem_replicate]
  refine ⟨?_, ?_, ?_, ?_⟩ <;> rintro ⟨-, h⟩ <;> exact absurd h (by decide)

theorem blank_replicate (n : ℕ) : Blank (List.replicate n ' ') := by
  intro c hc
  rw [List.mem_replicate] at hc
  rw [hc.2]; decide

/-- The line printed with a blanked word has the parameters only. -/
theorem line_blanked (g : GCode) (h : PlainCode g) (hgr : g.cls.group = some 1) :
    ∃ l, Line.ofText { g with ws := true }.str = .ok l ∧ l.block.gcodes = [] ∧
      l.block.modalParams = (canon g).params := by
  have hstr : { g with ws := true }.str =
      List.replicate g.word.str.length ' ' ++ g.sortedParams.flatMap (fun w => ' ' :: w.str) := rfl
  rw [hstr]
  have hcp : (canon g).params = g.sortedParams := rfl
  rw [hcp]
  have hmem : ∀ w ∈ g.sortedParams, w ∈ g.params := fun w hw => (sortedParams_perm g).mem_iff.1 hw
  have hpl : ∀ w ∈ g.sortedParams, PlainWord w := fun w hw => h.words w (List.mem_cons_of_mem _ (hmem w hw))
  have hnone : ∀ w ∈ g.sortedParams, wordClass w = none := fun w hw =>
    wordClass_param g.cls h.notCanned hgr w (h.gok.2 w (hmem w hw))
  generalize hS : g.sortedParams = ps at hmem hpl hnone
  cases ps with
  | nil =>
    simp only [List.flatMap_nil, List.append_nil]
    have hlen : g.word.str.length ≠ 0 := by simp [Word.str]
    obtain ⟨n, hn⟩ := Nat.exists_eq_succ_of_ne_zero hlen
    have hsp : lineSplit (List.replicate g.word.str.length ' ') = some ([], none) := by
      rw [hn, List.replicate_succ]
      unfold lineSplit
      rw [if_neg (by rintro ⟨h, -⟩; exact absurd h (by decide)), if_pos]
      rw [List.all_eq_true]
      intro x hx
      exact blank_replicate (n + 1) x (by rwa [List.replicate_succ])
    unfold Line.ofText Line.parts
    rw [hsp]
    have hb : Block.ofText (splitLine []).1 = .ok ⟨[], [], []⟩ := by decide +kernel
    simp only [hb]
    exact ⟨_, rfl, rfl, rfl⟩
  | cons w ps =>
    have hfl : (w :: ps).flatMap (fun w => ' ' :: w.str) = ' ' :: joinWith [' '] ((w :: ps).map Word.str) := by
      clear hS hmem hpl hnone
      induction ps generalizing w with
      | nil => simp [joinWith]
      | cons v ps ih =>
        rw [List.flatMap_cons, ih v]
        simp [joinWith]
    rw [hfl]
    set J := joinWith [' '] ((w :: ps).map Word.str) with hJ
    have hJs : NoSpecial J := plain_noSpecial _ hpl
    have hT : List.replicate g.word.str.length ' ' ++ ' ' :: J = List.replicate (g.word.str.length + 1) ' ' ++ J := by
      rw [List.replicate_succ', List.append_assoc]; rfl
    rw [hT]
    have hne : J ≠ [] := by
      intro h0
      rw [hJ] at h0
      cases ps <;> simp [joinWith, Word.str] at h0
    have hlast : ∀ x ∈ (List.replicate (g.word.str.length + 1) ' ' ++ J).getLast?, isSpace x = false := by
      rw [List.getLast?_append_of_ne_nil _ hne]
      apply join_last
      intro s hs
      obtain ⟨v, hv, rfl⟩ := List.mem_map.1 hs
      exact ⟨by simp [Word.str], plain_str_no_blank (hpl v hv)⟩
    obtain ⟨u, hparts, hub⟩ := parts_printed (List.replicate (g.word.str.length + 1) ' ' ++ J) _ none none
      ((noSpecial_blank _).append hJs) hlast (.inl rfl) trivial (by simp) (.inl rfl)
    simp only [Option.map_none, Option.toList_none, List.append_nil, joinWith] at hparts
    have hre := print_reread [] (w :: ps) (List.replicate (g.word.str.length + 1) ' ') u (blank_replicate _) hub
      (by simp) (by simp) List.Pairwise.nil (by simp) hnone (by simp) (by simpa using hpl) (by
        rintro ⟨i, j, a, b, -, ha, -⟩; simp at ha)
    simp only [List.map_nil, List.nil_append] at hre
    unfold Line.ofText
    rw [hparts]
    simp only
    rw [← hJ] at hre
    rw [hre]
    exact ⟨_, rfl, rfl, rfl⟩

theorem read_blanked (m : Machine) (g : GCode) (h : PlainCode g) (hgr : g.cls.group = some 1) :
    m.processStr { g with ws := true }.str = m.processGcodes [] (canon g).params := by
  obtain ⟨l, h1, h2, h3⟩ := line_blanked g h hgr
  unfold processStr
  rw [h1]
  simp only [processBlock, h2, h3]

/-- A line with a blanked word, for a machine whose motion mode is that word. -/
theorem read_redundant {m : Machine} (h : Reader m) (g : GCode) (hg : PlainCode g) (hgr : g.cls.group = some 1)
    (hcan : g.cls.proc ≠ .cancel) (x : GCode) (hx : m.mode 1 = some x) (hxw : x.word = g.word) :
    ∃ m', m.processStr { g with ws := true }.str = (m', none) ∧ SameState (after m (canon g)) m' ∧ Reader m' := by
  obtain ⟨hk, hn, hcc, hcw, hce⟩ := canon_facts hg
  have hxc : x.cls = g.cls := by
    have h1 := h.named 1 x hx
    have h2 := hg.named
    unfold Named at h1 h2
    rw [hxw, h2] at h1
    exact (Option.some.inj h1).symm
  rw [read_blanked m g hg hgr]
  by_cases hp : g.params = []
  · have hp' := hce.2 hp
    refine ⟨m, ?_, still_after h (canon g) hgr hg.notCanned hcan hp' x hx hxc hxw, h⟩
    rw [hp']
    rfl
  · have hp' : (canon g).params ≠ [] := fun h0 => hp (hce.1 h0)
    have hpar : x.params = [] := C37_plain m.mode h.ok x hx (by rw [hxc]; exact (plain_table _ hg.notCanned).2.1 hgr)
    have hnone : ∀ w ∈ (canon g).params, wordClass w = none := fun w hw =>
      wordClass_param g.cls hg.notCanned hgr w (hk.2 w hw)
    have hacc : ∀ w ∈ (canon g).params, w.letter ∈ x.cls.params := by
      intro w hw; rw [hxc]; exact hk.2 w hw
    have hmod := modalGcode_closed m x hx (h.ok 1 x hx).2.1 (h.named 1 x hx) (canon g).params hp' hnone
    rw [if_neg (by
      rintro ⟨⟨w, hw, hwn⟩, -⟩
      exact hwn (hacc w hw))] at hmod
    have hmo : modalOf x (canon g).params = canon g := by
      unfold modalOf
      rw [hpar, override_nil _ hk.1, List.filter_eq_self.2 (by
        intro w hw; simpa using hacc w hw), hxc, hxw]
      have := hg.noWs
      obtain ⟨c, w, p, s⟩ := g
      simp only at this
      subst this
      rfl
    refine ⟨after m (canon g), ?_, SameState.rfl' _, reader_after h _ hk hn hg.notCanned⟩
    unfold processGcodes
    rw [hmod, hmo]
    have := process_after m h.wf h.dict (canon g) hk hg.notCanned
    simp only [Option.toList, List.nil_append, execSort_single, processAll, andThen, this]

/-! ## The stream -/

/-- What is the motion mode of the omitting machine is the motion mode of the reader. -/
def Linked (m r : Machine) : Prop := ∀ x, m.mode 1 = some x → r.mode 1 = some x ∧ x.cls.proc ≠ .cancel

theorem modeAfter_motion (md : Mode) (g : GCode) (hc : g.cls.isSub .cannedCycle = false) :
    (modeAfter md g) 1 = if g.cls.proc = .cancel then none else
      if g.cls.group = some 1 then some ⟨g.cls, g.word, [], false⟩ else md 1 := by
  unfold modeAfter
  by_cases hp : g.cls.proc = .cancel
  · rw [if_pos hp, if_pos hp, Function.update_self]
  · rw [if_neg hp, if_neg hp]
    unfold setIn
    cases hgr : g.cls.group with
    | none => simp
    | some k =>
      by_cases hk : k = 1
      · subst hk
        simp only [Function.update_self, if_true, copyOf, (plain_table _ hc).2.1 hgr]
        simp
      · simp only [Function.update_of_ne (Ne.symm hk), Option.some.injEq, hk, if_false]

theorem linked_after {m r : Machine} (h : Linked m r) (g g' : GCode) (hcls : g'.cls = g.cls) (hw : g'.word = g.word)
    (hc : g.cls.isSub .cannedCycle = false) : Linked (after m g) (after r g') := by
  intro x hx
  rw [after_mode, modeAfter_motion _ _ hc] at hx
  rw [after_mode, modeAfter_motion _ _ (by rw [hcls]; exact hc), hcls, hw]
  by_cases hp : g.cls.proc = .cancel
  · rw [if_pos hp] at hx; cases hx
  · rw [if_neg hp] at hx ⊢
    by_cases hg : g.cls.group = some 1
    · rw [if_pos hg] at hx ⊢
      cases hx
      exact ⟨rfl, hp⟩
    · rw [if_neg hg] at hx ⊢
      exact h x hx

/-- What the output of `omit_redundant_modes` has to do with its input. -/
def Omitted (g g' : GCode) : Prop :=
  g'.cls = g.cls ∧ g'.word = g.word ∧ g'.params = g.params ∧ (g'.ws = true → g.cls.group = some 1)

theorem omit_spec (gs : List GCode) (hgs : ∀ g ∈ gs, PlainCode g) (m : Machine) (hm : Reader m) :
    ∃ out, omitFrom m gs = (out, .done) ∧ List.Forall₂ Omitted gs out ∧
      ∀ a b : Machine, Reader a → Reader b → SameState a b → Linked m a → ∀ n,
        ∃ a' b', readLines a ((gs.take n).map GCode.str) = (a', none) ∧
          readLines b ((out.take n).map GCode.str) = (b', none) ∧ SameState a' b' := by
  induction gs generalizing m with
  | nil => exact ⟨[], rfl, .nil, fun a b _ _ hs _ n => ⟨a, b, by simp [readLines], by simp [readLines], hs⟩⟩
  | cons g gs ih =>
    have hg := hgs g List.mem_cons_self
    obtain ⟨hk, hn, hcc, hcw, hce⟩ := canon_facts hg
    set g' : GCode := if redundant m.mode g then { g with ws := true } else g with hg'
    have hg'c : g'.cls = g.cls ∧ g'.word = g.word ∧ g'.params = g.params := by
      rw [hg']; split_ifs <;> exact ⟨rfl, rfl, rfl⟩
    have hg'k : GOK g' := by
      unfold GOK; rw [hg'c.1, hg'c.2.2]; exact hg.gok
    have hg'n : Named g' := by
      unfold Named; rw [hg'c.1, hg'c.2.1]; exact hg.named
    have hg'x : g'.cls.isSub .cannedCycle = false := by rw [hg'c.1]; exact hg.notCanned
    have hpr := process_after m hm.wf hm.dict g' hg'k hg'x
    obtain ⟨out, h1, h2, h3⟩ := ih (fun x hx => hgs x (List.mem_cons_of_mem _ hx)) (after m g')
      (reader_after hm g' hg'k hg'n hg'x)
    have hred : redundant m.mode g = true → g.cls.group = some 1 ∧ ∃ x, m.mode 1 = some x ∧ x.word = g.word := by
      intro h
      unfold redundant at h
      cases hgr : g.cls.group with
      | none => rw [hgr] at h; cases h
      | some k =>
        rw [hgr] at h; simp only at h
        cases hmk : m.mode k with
        | none => rw [hmk] at h; cases h
        | some x =>
          rw [hmk] at h
          simp only [Bool.and_eq_true, decide_eq_true_eq] at h
          obtain ⟨h4, rfl⟩ := h
          exact ⟨rfl, x, hmk, h4⟩
    refine ⟨g' :: out, ?_, .cons ⟨hg'c.1, hg'c.2.1, hg'c.2.2, ?_⟩ h2, ?_⟩
    · unfold omitFrom
      simp only [← hg', processGcodes_single, hpr, h1]
      rfl
    · intro hws
      rw [hg'] at hws
      split_ifs at hws with hr
      · exact (hred hr).1
      · rw [hg.noWs] at hws; cases hws
    · intro a b ha hb hs hl n
      cases n with
      | zero => exact ⟨a, b, rfl, rfl, hs⟩
      | succ n =>
        have hra : a.processStr g.str = (after a (canon g), none) := by
          rw [read_plain a g hg]; exact process_after a ha.wf ha.dict _ hk hg.notCanned
        have hrb : ∃ b', b.processStr g'.str = (b', none) ∧ SameState (after a (canon g)) b' ∧ Reader b' := by
          have hsa := same_after hs (canon g)
          by_cases hr : redundant m.mode g = true
          · obtain ⟨hgr, x, hx, hxw⟩ := hred hr
            obtain ⟨hax, hcan⟩ := hl x hx
            have hxc : x.cls = g.cls := by
              have h1 := hm.named 1 x hx
              have h2 := hg.named
              unfold Named at h1 h2
              rw [hxw, h2] at h1
              exact (Option.some.inj h1).symm
            obtain ⟨b', h4, h5, h6⟩ := read_redundant hb g hg hgr (hxc ▸ hcan) x (hs.mode ▸ hax) hxw
            refine ⟨b', ?_, hsa.trans h5, h6⟩
            rw [hg', if_pos hr]; exact h4
          · refine ⟨after b (canon g), ?_, hsa, reader_after hb _ hk hn hg.notCanned⟩
            rw [hg', if_neg hr, read_plain b g hg]
            exact process_after b hb.wf hb.dict _ hk hg.notCanned
        obtain ⟨b', hb1, hb2, hb3⟩ := hrb
        obtain ⟨a₂, b₂, h4, h5, h6⟩ := h3 (after a (canon g)) b' (reader_after ha _ hk hn hg.notCanned) hb3 hb2
          (linked_after hl g' (canon g) (by rw [hg'c.1]; rfl) (by rw [hg'c.2.1]; rfl) hg'x) n
        refine ⟨a₂, b₂, ?_, ?_, h6⟩
        · rw [List.take_succ_cons, List.map_cons, readLines, hra]; exact h4
        · rw [List.take_succ_cons, List.map_cons, readLines, hb1]; exact h5

theorem reader_null (ax : Finset Axis) : Reader (newWith ax Mode.null) :=
  ⟨newWith_wf ax _, fun _ _ h => (by cases h), fun _ _ h => (by cases h), fun _ _ h => (by cases h),
    fun _ h => (by cases h), ⟨_, rfl⟩, fun _ _ => ⟨le_refl _, le_refl _⟩⟩

/-- `omit_redundant_modes` does not fail on plain gcodes, changes nothing but the printing of words
of motion gcodes, and its output read line by line takes any machine through the same states as the
lines of its input, none of which fails. -/
theorem C47_same (gs : List GCode) (hgs : ∀ g ∈ gs, PlainCode g) :
    ∃ out, omitRedundant gs = (out, .done) ∧ List.Forall₂ Omitted gs out ∧
      ∀ r : Machine, Reader r → ∀ n, ∃ a b, readLines r ((gs.take n).map GCode.str) = (a, none) ∧
        readLines r ((out.take n).map GCode.str) = (b, none) ∧ SameState a b := by
  obtain ⟨out, h1, h2, h3⟩ := omit_spec gs hgs newNull (reader_null xyz)
  exact ⟨out, h1, h2, fun r hr n => h3 r r hr hr (SameState.rfl' r) (fun x hx => (by cases hx)) n⟩

/-- A stream with repeated words, one of them without parameters, and a cancelled motion mode. -/
def omitStream : List GCode :=
  [⟨.rapidMove, ⟨'G', .num 0⟩, [⟨'Z', .num 5⟩], false⟩,
   ⟨.linearMove, ⟨'G', .num 1⟩, [⟨'X', .num 1⟩], false⟩,
   ⟨.linearMove, ⟨'G', .num 1⟩, [⟨'Y', .num (-2)⟩], false⟩,
   ⟨.linearMove, ⟨'G', .num 1⟩, [], false⟩,
   ⟨.cancelCannedCycle, ⟨'G', .num 80⟩, [], false⟩,
   ⟨.linearMove, ⟨'G', .num 1⟩, [⟨'X', .num 3⟩], false⟩]

theorem plain_move (c : Cls) (n : ℕ) (hn : n < 10) (ps : List (Char × ℤ)) (hc : c.isSub .cannedCycle = false)
    (hcl : wordClass ⟨'G', .num n⟩ = some c) (hnd : (ps.map Prod.fst).Nodup)
    (hps : ∀ p ∈ ps, (p.1 = 'X' ∨ p.1 = 'Y' ∨ p.1 = 'Z') ∧ p.1 ∈ c.params ∧ |p.2| < 10 ^ 6) :
    PlainCode ⟨c, ⟨'G', .num n⟩, ps.map (fun p => ⟨p.1, .num p.2⟩), false⟩ := by
  refine ⟨⟨?_, ?_⟩, hcl, rfl, ?_, hc⟩
  · simpa [List.map_map, Function.comp_def] using hnd
  · intro w hw
    obtain ⟨p, hp, rfl⟩ := List.mem_map.1 hw
    exact (hps p hp).2.1
  · intro w hw
    rcases List.mem_cons.1 hw with rfl | hw
    · refine ⟨?_, by simp, fun h => absurd h (by simp)⟩
      exact ⟨n, 0, by omega, by omega, by simp⟩
    · obtain ⟨p, hp, rfl⟩ := List.mem_map.1 hw
      obtain ⟨h1, h2, h3⟩ := hps p hp
      obtain ⟨l, v⟩ := p
      simp only at h1 h2 h3 ⊢
      refine ⟨?_, ?_, ?_⟩
      · rcases h1 with rfl | rfl | rfl <;> exact ⟨v, 0, by omega, h3, by simp⟩
      · rcases h1 with rfl | rfl | rfl <;> simp
      · rcases h1 with rfl | rfl | rfl <;> intro h <;> simp at h

example : ∀ g ∈ omitStream, PlainCode g := by
  intro g hg
  simp only [omitStream, List.mem_cons, List.not_mem_nil, or_false] at hg
  rcases hg with rfl | rfl | rfl | rfl | rfl | rfl
  · exact plain_move .rapidMove 0 (by decide) [('Z', 5)] (by decide) (by decide +kernel) (by decide) (by decide)
  · exact plain_move .linearMove 1 (by decide) [('X', 1)] (by decide) (by decide +kernel) (by decide) (by decide)
  · exact plain_move .linearMove 1 (by decide) [('Y', -2)] (by decide) (by decide +kernel) (by decide) (by decide)
  · exact plain_move .linearMove 1 (by decide) [] (by decide) (by decide +kernel) (by decide) (by decide)
  · refine ⟨⟨by decide, by simp⟩, by unfold Named; decide +kernel, rfl, ?_, by decide⟩
    intro w hw
    simp only [List.mem_cons, List.not_mem_nil, or_false] at hw
    subst hw
    exact ⟨⟨80, 0, by omega, by omega, by simp⟩, by decide, fun h => absurd h (by decide)⟩
  · exact plain_move .linearMove 1 (by decide) [('X', 3)] (by decide) (by decide +kernel) (by decide) (by decide)

example : (omitRedundant omitStream).1.map GCode.str =
    ["G00 Z5", "G01 X1", "    Y-2", "   ", "G80", "G01 X3"].map String.toList := by decide +kernel

/-- A repeated canned cycle whose second occurrence does not repeat all words. -/
def omitCanned : List GCode :=
  [⟨.selectXYPlane, ⟨'G', .num 17⟩, [], false⟩,
   ⟨.drillingCycle, ⟨'G', .num 81⟩, [⟨'X', .num 1⟩, ⟨'Z', .num (-1)⟩, ⟨'R', .num 2⟩], false⟩,
   ⟨.drillingCycle, ⟨'G', .num 81⟩, [⟨'X', .num 2⟩], false⟩]

/-- Canned cycles have to be left out: the line with the blanked word inherits what the repeated
word would have dropped, so the modes read from the two streams differ. -/
theorem C47_canned_differs :
    (omitRedundant omitCanned).2 = .done ∧
      (((readLines (newWith xyz sampleMode) (omitCanned.map GCode.str)).1.mode 1).map GCode.str,
        ((readLines (newWith xyz sampleMode) ((omitRedundant omitCanned).1.map GCode.str)).1.mode 1).map GCode.str) =
      (some "G81 X2".toList, some "G81 R2 X2 Z-1".toList) := by decide +kernel

end Pygcode
