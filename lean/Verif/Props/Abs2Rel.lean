import Verif.Model.Transform
import Verif.Props.Canned
import Verif.Props.Modes
import Verif.Lemmas.Single

/-!
# Absolute to incremental conversion (C48)
-/

namespace Pygcode
open Props Machine

/-! ## Specification -/

/-- Kinds of moves, and the places (coordinates per axis) they lead to. -/
abbrev Path := List (Cls × (Axis → ℚ))

/-- The work positions a machine goes through while executing gcodes one after the other, with the
class of the gcode; it stops if the machine raises. -/
def track (m : Machine) : List GCode → Path
  | [] => []
  | g :: gs =>
    match m.process g with
    | (_, some _) => []
    | (m', none) =>
      match m'.pos with
      | .error _ => []
      | .ok p => (g.cls, p.val) :: track m' gs

/-- A path starting at `w`, without the moves that stand still. -/
noncomputable def dropStill (w : Axis → ℚ) : Path → Path
  | [] => []
  | v :: vs => if v.2 = w then dropStill w vs else v :: dropStill v.2 vs

/-- G0 or G1. -/
def IsMove (g : GCode) : Prop := g.cls = .rapidMove ∨ g.cls = .linearMove

/-! ## One move -/

/-- A machine at work position `w`, in incremental mode or not, that can move. -/
structure Ready (m : Machine) (ax : Finset Axis) (inc : Bool) (w : Axis → ℚ) : Prop where
  wf : m.WF
  good : ¬ m.BadSys
  synced : Synced m
  axes : m.axes = ax
  inc : m.incremental = inc
  at_ : ∀ a, m.absPos.val a - m.sysOff a - m.state.offset.val a = w a

/-- Where a move leads. -/
def next (inc : Bool) (ax : Finset Axis) (g : GCode) (w : Axis → ℚ) (a : Axis) : ℚ :=
  if a ∈ ax then
    match g.num? a.letter with
    | none => w a
    | some v => if inc then w a + v else v
  else w a

theorem ready_pos {m : Machine} {ax : Finset Axis} {inc : Bool} {w : Axis → ℚ} (h : Ready m ax inc w) :
    m.pos = .ok ⟨ax, m.absPos.unit, w⟩ := by
  rw [pos_ok m h.wf h.good, h.axes]
  congr 2
  funext a
  exact h.at_ a

theorem ready_of_pos {m : Machine} (hm : m.WF) (hb : ¬ m.BadSys) (hs : Synced m) {p : Position}
    (hp : m.pos = .ok p) : Ready m m.axes m.incremental p.val := by
  refine ⟨hm, hb, hs, rfl, rfl, fun a => ?_⟩
  rw [pos_ok m hm hb] at hp
  cases hp
  rfl

theorem ready_outside {m : Machine} {ax : Finset Axis} {inc : Bool} {w : Axis → ℚ} (h : Ready m ax inc w)
    (a : Axis) (ha : a ∉ ax) : w a = 0 := by
  have ha' : a ∉ m.axes := h.axes ▸ ha
  rw [← h.at_ a, abs_outside m h.wf a ha', sysOff_outside m h.wf a ha', off_outside m h.wf a ha']
  simp

theorem isMove_proc {g : GCode} (h : IsMove g) :
    (g.cls.proc = .motion ∨ g.cls.proc = .rapid) ∧ g.cls.group = some 1 ∧
      (g.cls.isSub .rapidMove || g.cls.isSub .linearMove) = true ∧
      (∀ a : Axis, a.letter ∈ g.cls.params) := by
  rcases h with h | h <;> rw [h] <;> decide +kernel

theorem ready_goto {m : Machine} {ax : Finset Axis} {inc : Bool} {w : Axis → ℚ} (h : Ready m ax inc w)
    (g : GCode) (hg : GOK g) (hp : g.cls.proc = .motion ∨ g.cls.proc = .rapid) :
    ∃ m', m.process g = (m', none) ∧ Ready m' ax inc (next inc ax g w) ∧
      m'.mode = Function.update m.mode 1 (some (copyOf g)) ∧ m'.absPos.unit = m.absPos.unit := by
  have htz : ∀ a ∉ m.axes, m.target (coords m.axes g) a = 0 := by
    intro a ha
    unfold target
    rw [coords_lookup, if_neg ha]
    exact abs_outside m h.wf a ha
  refine ⟨_, process_motion m h.wf h.good h.synced g hg hp, ⟨?_, h.good, h.synced, h.axes, h.inc, ?_⟩, rfl, rfl⟩
  · exact goto_wf { m with mode := Function.update m.mode 1 (some (copyOf g)) } ⟨h.wf.abs, h.wf.absWF, h.wf.sys, h.wf.off, h.wf.offWF, h.wf.lo, h.wf.hi⟩ _ htz
  · intro a
    show m.target (coords m.axes g) a - m.sysOff a - m.state.offset.val a = _
    unfold next target
    rw [coords_lookup, h.axes, h.inc, ← h.at_ a]
    by_cases ha : a ∈ ax
    · rw [if_pos ha, if_pos ha]
      cases g.num? a.letter with
      | none => rfl
      | some v => cases inc <;> simp <;> ring
    · rw [if_neg ha, if_neg ha]

/-! ## The words of the difference -/

theorem axisOrder_spec : axisOrder.Nodup ∧ ∀ a, a ∈ axisOrder := by
  refine ⟨by decide, fun a => by cases a <;> decide⟩

theorem letter_inj {a b : Axis} (h : a.letter = b.letter) : a = b := by
  have := congrArg Axis.ofLetter h
  rw [Axis.ofLetter_letter, Axis.ofLetter_letter] at this
  exact Option.some.inj this

theorem coordWords_nodup (p : Position) : ((coordWords p).map Word.letter).Nodup := by
  unfold coordWords
  rw [List.map_map]
  refine List.Nodup.map ?_ (axisOrder_spec.1.filter _)
  intro a b h
  exact letter_inj h

theorem coordWords_letters (p : Position) : ∀ w ∈ coordWords p, ∃ a : Axis, w.letter = a.letter := by
  intro w hw
  obtain ⟨a, -, rfl⟩ := List.mem_map.1 hw
  exact ⟨a, rfl⟩

theorem find_map_letter (l : List Axis) (f : Axis → ℚ) (a : Axis) :
    ((l.map (fun b => (⟨b.letter, .num (f b)⟩ : Word))).find? (fun w => w.letter == a.letter)).map Word.num =
      if a ∈ l then some (f a) else none := by
  induction l with
  | nil => simp
  | cons b l ih =>
    rw [List.map_cons, List.find?_cons]
    by_cases h : b = a
    · subst h
      simp [Word.num]
    · have : (b.letter == a.letter) = false := by
        rw [beq_eq_false_iff_ne]; exact fun h' => h (letter_inj h')
      simp only [this, ih, List.mem_cons, Ne.symm h, false_or]

/-- What the words of a position give: its non-zero coordinates. -/
theorem coordWords_num (p : Position) (c : Cls) (w : Word) (s : Bool) (a : Axis) :
    GCode.num? ⟨c, w, coordWords p, s⟩ a.letter = if a ∈ p.axes ∧ p.val a ≠ 0 then some (p.val a) else none := by
  unfold GCode.num? GCode.param coordWords
  simp only
  rw [find_map_letter]
  have : (a ∈ axisOrder.filter (fun a => decide (a ∈ p.axes) && decide (p.val a ≠ 0))) ↔
      (a ∈ p.axes ∧ p.val a ≠ 0) := by
    rw [List.mem_filter]
    simp [axisOrder_spec.2 a]
  simp only [this]

theorem coordWords_nil (p : Position) : coordWords p = [] ↔ ∀ a ∈ p.axes, p.val a = 0 := by
  unfold coordWords
  rw [List.map_eq_nil_iff, List.filter_eq_nil_iff]
  constructor
  · intro h a ha
    by_contra hne
    exact h a (axisOrder_spec.2 a) (by simp [ha, hne])
  · intro h a _
    by_cases ha : a ∈ p.axes
    · simp [h a ha]
    · simp [ha]

/-! ## The loop -/

/-- Processing one gcode without other words. -/
theorem processGcodes_single (m : Machine) (g : GCode) :
    m.processGcodes [g] [] = m.process g := by
  unfold processGcodes modalGcode
  rw [if_pos rfl]
  simp only [Option.toList, List.append_nil, execSort_single, processAll, andThen]
  rcases m.process g with ⟨m', _ | e⟩ <;> rfl

/-- The incremental gcode `_gcodes_abs2rel` makes of a move from `w` to `v`. -/
def relMove (ax : Finset Axis) (g : GCode) (w v : Axis → ℚ) : GCode :=
  ⟨g.cls, g.word, coordWords ⟨ax, .mm, fun a => v a - w a⟩, false⟩

theorem abs2relOne_move {m : Machine} {ax : Finset Axis} {w : Axis → ℚ} (h : Ready m ax false w)
    (g : GCode) (hg : GOK g) (hn : Named g) (hmv : IsMove g) :
    ∃ m', m.process g = (m', none) ∧ Ready m' ax false (next false ax g w) ∧
      abs2relOne m g = (m', .ok (if next false ax g w = w then [] else
        [relMove ax g w (next false ax g w)])) := by
  obtain ⟨hp, hgr, hsub, hpar⟩ := isMove_proc hmv
  obtain ⟨m', h1, h2, -, hu⟩ := ready_goto h g hg hp
  refine ⟨m', h1, h2, ?_⟩
  set v := next false ax g w with hv
  have hcw : ∀ u, coordWords ⟨ax, u, fun a => v a - w a⟩ = coordWords ⟨ax, .mm, fun a => v a - w a⟩ :=
    fun _ => rfl
  have hnil : coordWords ⟨ax, .mm, fun a => v a - w a⟩ = [] ↔ v = w := by
    rw [coordWords_nil]
    constructor
    · intro hz
      funext a
      by_cases ha : a ∈ ax
      · exact sub_eq_zero.1 (hz a ha)
      · rw [ready_outside h2 a ha, ready_outside h a ha]
    · intro he a _; simp [he]
  unfold abs2relOne
  rw [ready_pos h]
  simp only [processGcodes_single, h1, ready_pos h2, hgr, ne_eq, not_true_eq_false, if_false, hsub, if_true]
  simp only [Position.sub, subset_refl, if_true, hcw]
  by_cases hvw : v = w
  · rw [if_pos (hnil.2 hvw), if_pos hvw]
  · rw [if_neg (mt hnil.1 hvw), if_neg hvw]
    have hin : ∀ p ∈ coordWords ⟨ax, .mm, fun a => v a - w a⟩, p.letter ∈ g.cls.params := by
      intro p hp
      obtain ⟨a, ha⟩ := coordWords_letters _ p hp
      rw [ha]; exact hpar a
    rw [words2gcodes_single g.word g.cls hn _ (fun p hp => .inr (hin p hp))]
    have hf : (coordWords ⟨ax, .mm, fun a => v a - w a⟩).filter (fun p => decide (p.letter ∈ g.cls.params)) =
        coordWords ⟨ax, .mm, fun a => v a - w a⟩ := by
      rw [List.filter_eq_self]; intro p hp; simpa using hin p hp
    rw [hf, if_pos (coordWords_nodup _)]
    rfl

theorem relMove_gok (ax : Finset Axis) (g : GCode) (hmv : IsMove g) (w v : Axis → ℚ) :
    GOK (relMove ax g w v) := by
  refine ⟨coordWords_nodup _, fun p hp => ?_⟩
  obtain ⟨a, ha⟩ := coordWords_letters _ p hp
  rw [ha]; exact (isMove_proc hmv).2.2.2 a

theorem relMove_next (ax : Finset Axis) (g : GCode) (w v : Axis → ℚ) (hout : ∀ a ∉ ax, v a = w a) :
    next true ax (relMove ax g w v) w = v := by
  funext a
  unfold next relMove
  rw [coordWords_num]
  by_cases ha : a ∈ ax
  · rw [if_pos ha]
    by_cases hz : v a - w a = 0
    · simp only [hz, ne_eq, not_true_eq_false, and_false, if_false]
      linarith
    · simp only [ha, hz, ne_eq, not_false_eq_true, and_self, if_true]
      ring
  · rw [if_neg ha, hout a ha]

theorem loop_spec (gs : List GCode) (hgs : ∀ g ∈ gs, GOK g ∧ Named g ∧ IsMove g) (s : Status)
    {ax : Finset Axis} {w : Axis → ℚ} {m a r : Machine} (hm : Ready m ax false w) (ha : Ready a ax false w)
    (hr : Ready r ax true w) :
    ∃ out, abs2relLoop m gs s = (out, s) ∧ track r out = dropStill w (track a gs) ∧
      (∀ g ∈ out, GOK g ∧ IsMove g ∧ ∃ g₀ ∈ gs, g.word = g₀.word ∧ g.cls = g₀.cls) := by
  induction gs generalizing w m a r with
  | nil => exact ⟨[], rfl, rfl, by simp⟩
  | cons g gs ih =>
    obtain ⟨hg, hn, hmv⟩ := hgs g List.mem_cons_self
    obtain ⟨m', -, hm', hone⟩ := abs2relOne_move hm g hg hn hmv
    obtain ⟨a', ha1, ha', -⟩ := ready_goto ha g hg (isMove_proc hmv).1
    have hgs' : ∀ x ∈ gs, GOK x ∧ Named x ∧ IsMove x := fun x hx => hgs x (List.mem_cons_of_mem _ hx)
    set v := next false ax g w with hv
    have htr : track a (g :: gs) = (g.cls, v) :: track a' gs := by
      rw [track, ha1]
      simp only [ready_pos ha']
    unfold abs2relLoop
    rw [hone, htr]
    simp only
    by_cases hvw : v = w
    · obtain ⟨out, h1, h2, h3⟩ := ih hgs' hm' ha' (hvw ▸ hr)
      refine ⟨out, ?_, ?_, ?_⟩
      · rw [if_pos hvw, h1]; rfl
      · rw [dropStill, if_pos hvw, h2, hvw]
      · intro x hx
        obtain ⟨p1, p2, g₀, p3, p4⟩ := h3 x hx
        exact ⟨p1, p2, g₀, List.mem_cons_of_mem _ p3, p4⟩
    · have hout : ∀ a ∉ ax, v a = w a := fun b hb => by
        rw [ready_outside hm' b hb, ready_outside hm b hb]
      have hrg := relMove_gok ax g hmv w v
      obtain ⟨r', hr1, hr', -⟩ := ready_goto hr (relMove ax g w v) hrg (isMove_proc (g := relMove ax g w v) hmv).1
      rw [relMove_next ax g w v hout] at hr'
      obtain ⟨out, h1, h2, h3⟩ := ih hgs' hm' ha' hr'
      refine ⟨relMove ax g w v :: out, ?_, ?_, ?_⟩
      · rw [if_neg hvw, h1]; rfl
      · rw [dropStill, if_neg hvw, track, hr1]
        simp only [ready_pos hr', h2]
        rfl
      · intro x hx
        rcases List.mem_cons.1 hx with rfl | hx
        · exact ⟨hrg, hmv, g, List.mem_cons_self, rfl, rfl⟩
        · obtain ⟨p1, p2, g₀, p3, p4⟩ := h3 x hx
          exact ⟨p1, p2, g₀, List.mem_cons_of_mem _ p3, p4⟩

/-- The machine of `_gcodes_abs2rel` after `m.pos = start_pos`. -/
theorem abs2rel_machine (ax : Finset Axis) (start : Position) (hax : start.axes = ax) (hw : start.WF) :
    ∃ m, (newWith ax g90Mode).setPos start = (m, none) ∧ Ready m ax false start.val := by
  obtain ⟨m, h1, h2, h3, -, h5, h6⟩ := C30_readback (newWith ax g90Mode) (newWith_wf ax g90Mode) _ rfl
    ⟨le_refl 1, by show 1 ≤ 9; decide⟩ start hax hw
  have hb : ¬ m.BadSys := by unfold BadSys; rw [h6]; rintro ⟨h, -⟩; cases h
  have hs : Synced m := by
    intro g hg
    rw [h5] at hg
    cases hg
  have hinc : m.incremental = false := by unfold incremental; rw [h5]; rfl
  have hr := ready_of_pos h2 hb hs h3
  have hmax : m.axes = ax := by
    have h := ready_pos hr
    rw [h3] at h
    have := congrArg (fun x => match x with | .ok p => p.axes | .error _ => ∅) h
    exact (this.symm.trans hax)
  rw [hmax, hinc] at hr
  exact ⟨m, h1, hr⟩

/-- Any stream of G0/G1 moves, converted by `_gcodes_abs2rel` and executed by any machine in
incremental mode standing at the start, goes through the positions that any machine in absolute
mode with the same axes and start goes through executing the original stream, moves that stand
still left out; whatever offsets and coordinate systems the two machines have.  Moves keep their
word, and the conversion ends as the stream does. -/
theorem C48_trajectory (gs : List GCode) (hgs : ∀ g ∈ gs, GOK g ∧ Named g ∧ IsMove g) (s : Status)
    (start : Position) (hw : start.WF) (a r : Machine)
    (ha : a.WF) (hba : ¬ a.BadSys) (hsa : Synced a) (hia : a.incremental = false)
    (hr : r.WF) (hbr : ¬ r.BadSys) (hsr : Synced r) (hir : r.incremental = true)
    (pa : Position) (hpa : a.pos = .ok pa) (hpav : pa.val = start.val) (hax : a.axes = start.axes)
    (pr : Position) (hpr : r.pos = .ok pr) (hprv : pr.val = start.val) (hrx : r.axes = start.axes) :
    ∃ out, abs2rel start.axes start (gs, s) = (out, s) ∧
      track r out = dropStill start.val (track a gs) ∧ (track a gs).length = gs.length ∧
      (∀ g ∈ out, GOK g ∧ IsMove g ∧ ∃ g₀ ∈ gs, g.word = g₀.word ∧ g.cls = g₀.cls) := by
  obtain ⟨m, h1, h2⟩ := abs2rel_machine start.axes start rfl hw
  have ha' := ready_of_pos ha hba hsa hpa
  have hr' := ready_of_pos hr hbr hsr hpr
  rw [hpav, hia, hax] at ha'
  rw [hprv, hir, hrx] at hr'
  obtain ⟨out, h3, h4, h5⟩ := loop_spec gs hgs s h2 ha' hr'
  refine ⟨out, ?_, h4, ?_, h5⟩
  · unfold abs2rel
    rw [h1]
    exact h3
  · have : ∀ (gs : List GCode) (hgs : ∀ g ∈ gs, GOK g ∧ Named g ∧ IsMove g) (a : Machine) (w : Axis → ℚ),
        Ready a start.axes false w → (track a gs).length = gs.length := by
      intro gs
      induction gs with
      | nil => intro _ _ _ _; rfl
      | cons g gs ih =>
        intro hgs a w ha
        obtain ⟨hg, hn, hmv⟩ := hgs g List.mem_cons_self
        obtain ⟨a', ha1, ha', -⟩ := ready_goto ha g hg (isMove_proc hmv).1
        rw [track, ha1]
        simp only [ready_pos ha', List.length_cons]
        rw [ih (fun x hx => hgs x (List.mem_cons_of_mem _ hx)) a' _ ha']
    exact this gs hgs a _ ha'

/-- A motion other than G0/G1 ends the conversion with `NotImplementedError`, nothing of it or
after it being yielded. -/
theorem C48_unsupported (gs rest : List GCode) (hgs : ∀ g ∈ gs, GOK g ∧ Named g ∧ IsMove g)
    (g : GCode) (hg : GOK g) (hp : g.cls.proc = .motion ∨ g.cls.proc = .rapid) (hno : ¬ IsMove g)
    (s : Status) (start : Position) (hw : start.WF) :
    abs2rel start.axes start (gs ++ g :: rest, s) =
      ((abs2rel start.axes start (gs, .done)).1, .raised .notImpl) := by
  obtain ⟨m, h1, h2⟩ := abs2rel_machine start.axes start rfl hw
  unfold abs2rel
  rw [h1]
  simp only
  have hsub : (g.cls.isSub .rapidMove || g.cls.isSub .linearMove) = false := by
    have := Cls.forall_of_all (p := fun c => c == .rapidMove || c == .linearMove ||
      !(c.isSub .rapidMove || c.isSub .linearMove)) (by decide +kernel) g.cls
    unfold IsMove at hno
    push Not at hno
    simpa [hno.1, hno.2] using this
  have hgr : g.cls.group = some 1 := moving_group _ (by tauto)
  clear h1
  generalize start.val = w at h2
  induction gs generalizing m w with
  | nil =>
    obtain ⟨m', h3, h4, -⟩ := ready_goto h2 g hg hp
    simp only [List.nil_append, abs2relLoop]
    have : abs2relOne m g = (m', .error .notImpl) := by
      unfold abs2relOne
      rw [ready_pos h2]
      simp only [processGcodes_single, h3, ready_pos h4, hgr, ne_eq, not_true_eq_false, if_false, hsub,
        Bool.false_eq_true]
    rw [this]
  | cons x gs ih =>
    obtain ⟨hx, hn, hmv⟩ := hgs x List.mem_cons_self
    obtain ⟨m', -, hm', hone⟩ := abs2relOne_move h2 x hx hn hmv
    rw [List.cons_append, abs2relLoop, abs2relLoop, hone]
    simp only [Gen.pre, ih (fun y hy => hgs y (List.mem_cons_of_mem _ hy)) m' _ hm']

/-! ## Cases -/

/-- `G0 X5 Y0`, `G1 Z-2`, `G1 X5`, `G0 X0 Y3`. -/
def sampleStream : List GCode :=
  [⟨.rapidMove, ⟨'G', .num 0⟩, [⟨'X', .num 5⟩, ⟨'Y', .num 0⟩], false⟩,
   ⟨.linearMove, ⟨'G', .num 1⟩, [⟨'Z', .num (-2)⟩], false⟩,
   ⟨.linearMove, ⟨'G', .num 1⟩, [⟨'X', .num 5⟩], false⟩,
   ⟨.rapidMove, ⟨'G', .num 0⟩, [⟨'X', .num 0⟩, ⟨'Y', .num 3⟩], false⟩]

example : abs2rel xyz (Position.make xyz .mm [(.X, 2), (.Z, 1)]) (sampleStream, .done) =
    ([⟨.rapidMove, ⟨'G', .num 0⟩, [⟨'X', .num 3⟩], false⟩,
      ⟨.linearMove, ⟨'G', .num 1⟩, [⟨'Z', .num (-3)⟩], false⟩,
      ⟨.rapidMove, ⟨'G', .num 0⟩, [⟨'X', .num (-5)⟩, ⟨'Y', .num 3⟩], false⟩], .done) := by
  decide +kernel

example : abs2rel xyz (Position.make xyz .mm [])
    ([⟨.rapidMove, ⟨'G', .num 0⟩, [⟨'X', .num 5⟩], false⟩,
      ⟨.arcMoveCW, ⟨'G', .num 2⟩, [⟨'X', .num 5⟩], false⟩], .done) =
    ([⟨.rapidMove, ⟨'G', .num 0⟩, [⟨'X', .num 5⟩], false⟩], .raised .notImpl) := by decide +kernel

end Pygcode
