import Verif.Props.Crop
import Verif.Props.ModePrint
import Verif.Props.Omit

/-!
# The preamble printed by pygcode-crop (C64, C65)
-/

namespace Pygcode
open Props Machine Spec

/-! ## Specification -/

/-- A coordinate that prints exactly: at most three decimals, at most six digits. -/
def Shown (q : ℚ) : Prop := ∃ n : ℤ, ∃ d ≤ 3, |n| < 10 ^ 6 ∧ q = n / 10 ^ d

/-- A machine with the axes X, Y, Z and without offsets. -/
structure Clear (m : Machine) : Prop where
  wf : m.WF
  axes : m.axes = xyz
  noOffsets : NoOffsets m
  offset : ∀ a, m.state.offset.val a = 0

/-- What the preamble assumes of the machine before the first kept line: a plane with normal axis `n`,
coordinates that print exactly, mode values that print exactly, no spindle speed with G96, no canned
cycle, and absolute distance mode. -/
structure Croppable (m : Machine) (n : Axis) : Prop where
  plane : normalOf m.mode = some n
  top : Shown (m.rangeMax.val n)
  pos : ∀ a ∈ xyz, Shown (m.absPos.val a)
  words : ∀ k g, m.mode k = some g → ∀ w ∈ g.word :: g.params, PlainWord w
  noG96S : ∀ g s, m.mode 14 = some g → m.mode 202 = some s → g.cls ≠ .spindleConstantSurfaceSpeedMode
  notCanned : ∀ g, m.mode.motion = some g → g.cls.proc ≠ .canned
  absolute : m.incremental = false

/-! ## Proofs -/

theorem Clear.of_frame {m m' : Machine} (h : Clear m) (hf : Frame m m') (hw : m'.WF) : Clear m' :=
  ⟨hw, hf.axes.trans h.axes, noOffsets_of_frame hf h.noOffsets, fun a => by rw [hf.offset]; exact h.offset a⟩

theorem Clear.sysOff {m : Machine} (h : Clear m) (a : Axis) : m.sysOff a = 0 := by
  obtain ⟨f, hf, h0⟩ := h.noOffsets
  unfold Machine.sysOff
  simp [hf, h0]

theorem rapid_plain (cs : List (Axis × ℚ)) (hax : ∀ c ∈ cs, c.1 ∈ xyz) (hnd : (cs.map Prod.fst).Nodup)
    (hq : ∀ c ∈ cs, Shown c.2) : PlainCode (rapidTo cs) := by
  have hl : ∀ c ∈ cs, c.1 = .X ∨ c.1 = .Y ∨ c.1 = .Z := by
    intro c hc
    have := hax c hc
    revert this
    generalize c.1 = a
    cases a <;> decide
  refine ⟨⟨?_, ?_⟩, (by decide +kernel : wordClass ⟨'G', .num 0⟩ = some .rapidMove), rfl, ?_,
    (by decide : Cls.rapidMove.isSub .cannedCycle = false)⟩
  · show ((cs.map _).map _).Nodup
    rw [List.map_map]
    have : (Word.letter ∘ fun c : Axis × ℚ => (⟨c.1.letter, .num c.2⟩ : Word)) = Axis.letter ∘ Prod.fst := rfl
    rw [this, ← List.map_map]
    exact hnd.map (fun a b h => by
      have := congrArg Axis.ofLetter h
      rw [Axis.ofLetter_letter, Axis.ofLetter_letter] at this
      exact Option.some.inj this)
  · intro w hw
    obtain ⟨c, hc, rfl⟩ := List.mem_map.1 hw
    show c.1.letter ∈ Cls.rapidMove.params
    rcases hl c hc with h | h | h <;> rw [h] <;> decide
  · intro w hw
    rcases List.mem_cons.1 hw with rfl | hw
    · exact ⟨⟨0, 0, by omega, by omega, by simp⟩, (by decide : 'G' ≠ 'O'), fun h => absurd h (by decide : 'G' ≠ 'T')⟩
    · obtain ⟨c, hc, rfl⟩ := List.mem_map.1 hw
      have hs := hq c hc
      rcases hl c hc with h | h | h <;> rw [h]
      · exact ⟨hs, (by decide : 'X' ≠ 'O'), fun h => absurd h (by decide : 'X' ≠ 'T')⟩
      · exact ⟨hs, (by decide : 'Y' ≠ 'O'), fun h => absurd h (by decide : 'Y' ≠ 'T')⟩
      · exact ⟨hs, (by decide : 'Z' ≠ 'O'), fun h => absurd h (by decide : 'Z' ≠ 'T')⟩

theorem rapid_num (cs : List (Axis × ℚ)) (a : Axis) : (rapidTo cs).num? a.letter = Position.lookup cs a := by
  unfold GCode.num? GCode.param Position.lookup rapidTo
  simp only [List.find?_map]
  have : (fun w : Word => w.letter == a.letter) ∘ (fun c : Axis × ℚ => (⟨c.1.letter, .num c.2⟩ : Word)) =
      fun c => c.1 == a := by
    funext c
    simp only [Function.comp]
    by_cases h : c.1 = a
    · simp [h]
    · have : c.1.letter ≠ a.letter := fun h' => h (by
        have := congrArg Axis.ofLetter h'
        rw [Axis.ofLetter_letter, Axis.ofLetter_letter] at this
        exact Option.some.inj this)
      simp [h, this]
  rw [this]
  cases cs.find? (fun c => c.1 == a) <;> rfl

theorem param_iff {g : GCode} (hg : GOK g) (l : Char) (w : Word) :
    g.param l = some w ↔ w ∈ g.params ∧ w.letter = l := by
  unfold GCode.param
  constructor
  · intro h
    exact ⟨List.mem_of_find?_eq_some h, by simpa using List.find?_some h⟩
  · rintro ⟨hw, rfl⟩
    cases h : g.params.find? (fun x => x.letter == w.letter) with
    | none => simpa using List.find?_eq_none.1 h w hw
    | some v =>
      have h1 := List.mem_of_find?_eq_some h
      have h2 : v.letter = w.letter := by simpa using List.find?_some h
      rw [List.inj_on_of_nodup_map hg.1 h1 hw h2]

theorem canon_num {g : GCode} (hg : GOK g) (l : Char) : (canon g).num? l = g.num? l := by
  have hp : (canon g).params.Perm g.params := sortedParams_perm g
  have hg' : GOK (canon g) := canon_ok hg
  unfold GCode.num?
  congr 1
  apply Option.ext
  intro w
  rw [param_iff hg', param_iff hg, hp.mem_iff]

/-- A printed rapid move, read by a machine in absolute mode. -/
theorem rapid_read {M : Machine} (hM : Clear M) (hinc : M.incremental = false) (cs : List (Axis × ℚ))
    (hax : ∀ c ∈ cs, c.1 ∈ xyz) (hnd : (cs.map Prod.fst).Nodup) (hq : ∀ c ∈ cs, Shown c.2) :
    ∃ M', M.processStr (rapidTo cs).str = (M', none) ∧ Clear M' ∧
      M'.mode = Function.update M.mode 1 (some ⟨.rapidMove, ⟨'G', .num 0⟩, [], false⟩) ∧
      ∀ a, M'.absPos.val a = (Position.lookup cs a).getD (M.absPos.val a) := by
  have hpl := rapid_plain cs hax hnd hq
  have hgok := canon_ok hpl.gok
  obtain ⟨f, hf, h0⟩ := hM.noOffsets
  have hpr := process_after M hM.wf ⟨f, hf⟩ (canon (rapidTo cs)) hgok hpl.notCanned
  have hpath := path_process M hM.wf (canon (rapidTo cs)) hgok
  rw [hpr] at hpath
  have hmode : (after M (canon (rapidTo cs))).mode =
      Function.update M.mode 1 (some ⟨.rapidMove, ⟨'G', .num 0⟩, [], false⟩) := by
    rw [after_mode]
    unfold modeAfter
    rw [if_neg (by show Cls.rapidMove.proc ≠ .cancel; decide), setIn_motion _ _ (by show Cls.rapidMove.group = some 1; decide)]
    congr 2
    unfold copyOf
    have hmp : Cls.rapidMove.modalParams = [] := by decide
    simp [canon, rapidTo, hmp]
  refine ⟨_, (read_plain M _ hpl).trans hpr, hM.of_frame hpath.frame (hpath.wf hM.wf), hmode, fun a => ?_⟩
  have hcl := hM.of_frame (frame_withMode M (setIn M.mode (canon (rapidTo cs)))) (withMode_wf M hM.wf _)
  show (match Position.lookup (coords M.axes (canon (rapidTo cs))) a with
    | none => M.absPos.val a
    | some v => if (M.withMode (setIn M.mode (canon (rapidTo cs)))).incremental then _ else _) = _
  have hi : (M.withMode (setIn M.mode (canon (rapidTo cs)))).incremental = false := by
    rw [← hinc]
    unfold incremental
    have : (M.withMode (setIn M.mode (canon (rapidTo cs)))).mode.distance = M.mode.distance := by
      show (setIn M.mode (canon (rapidTo cs))) 3 = M.mode 3
      rw [setIn_motion _ _ (by show Cls.rapidMove.group = some 1; decide), Function.update_of_ne (by decide)]
    rw [this]
  rw [coords_lookup, canon_num hpl.gok, rapid_num, hi]
  by_cases ha : a ∈ M.axes
  · rw [if_pos ha]
    cases Position.lookup cs a with
    | none => rfl
    | some v => simp [hcl.sysOff, hcl.offset]
  · rw [if_neg ha]
    have : Position.lookup cs a = none := by
      unfold Position.lookup
      rw [Option.map_eq_none_iff, List.find?_eq_none]
      intro c hc h
      exact ha (hM.axes ▸ (by simpa using h : c.1 = a) ▸ hax c hc)
    rw [this]; rfl

/-- The comments and the empty line are read without effect. -/
theorem read_comment (M : Machine) : M.processStr cropModeComment = (M, none) ∧
    M.processStr cropMoveComment = (M, none) ∧ M.processStr [] = (M, none) := by
  have h1 : Line.ofText cropModeComment = .ok ⟨⟨[], [], []⟩, some (.brackets "machine mode before cropping".toList), none⟩ := by
    decide +kernel
  have h2 : Line.ofText cropMoveComment =
      .ok ⟨⟨[], [], []⟩, some (.brackets "traverse into position, up, over, and down".toList), none⟩ := by
    decide +kernel
  have h3 : Line.ofText [] = .ok ⟨⟨[], [], []⟩, none, none⟩ := by decide +kernel
  unfold processStr
  rw [h1, h2, h3]
  exact ⟨rfl, rfl, rfl⟩

theorem readLines_append (M : Machine) (a b : List (List Char)) :
    readLines M (a ++ b) = andThen (readLines M a) (fun m => readLines m b) := by
  induction a generalizing M with
  | nil => simp [readLines, andThen]
  | cons t ts ih =>
    simp only [List.cons_append, readLines]
    rcases M.processStr t with ⟨m', _ | e⟩ <;> simp [andThen, ih]

/-- The printed mode, with its comment, read by a machine. -/
theorem modeLines_read {m : Machine} (hok : PrintableMode m.mode) (hcan : ∀ g, m.mode.motion = some g → g.cls.proc ≠ .canned)
    (habs : m.incremental = false) {M : Machine} (hM : Clear M) (hinc : m.mode.distance = none → M.incremental = false) :
    ∃ M', readLines M (cropModeLines m.mode) = (M', none) ∧ Clear M' ∧ M'.incremental = false ∧
      (∀ a, M'.absPos.val a = M.absPos.val a) ∧
      ∀ k, (m.mode k = none → M'.mode k = M.mode k) ∧
        ∀ g, m.mode k = some g → ∃ g', M'.mode k = some g' ∧ SameGCode g g' := by
  obtain ⟨f, hf, -⟩ := hM.noOffsets
  obtain ⟨M', h1, h2, h3⟩ := C40_executed m.mode hok hcan M hM.wf f hf
  have hp := path_calls [.str m.mode.str] M hM.wf (by simp [Call.OK])
  have hr : Call.runAll M [.str m.mode.str] = M' := by simp [Call.runAll, Call.run, h1]
  rw [hr] at hp
  have hlines : readLines M (cropModeLines m.mode) = (M', none) := by
    unfold cropModeLines
    by_cases he : m.mode.str = []
    · rw [if_pos he]
      rw [he, (read_comment M).2.2] at h1
      rw [← h1]; rfl
    · rw [if_neg he]
      simp [readLines, (read_comment M).1, andThen, h1]
  refine ⟨M', hlines, hM.of_frame hp.frame (hp.wf hM.wf), ?_, h2, h3⟩
  unfold incremental at habs ⊢
  cases hd : m.mode.distance with
  | none =>
    have h4 : M'.mode.distance = M.mode.distance := (h3 3).1 hd
    have := hinc hd
    unfold incremental at this
    rw [h4]; exact this
  | some g =>
    obtain ⟨g', h4, h5⟩ := (h3 3).2 g hd
    have h4' : M'.mode.distance = some g' := h4
    rw [hd] at habs
    rw [h4']
    simp only at habs ⊢
    rw [← h5.1]; exact habs

/-- The machine before a line of a file is the one driven by the lines before it. -/
theorem trace_before {i : ℕ} {m : Machine} {ts : List (List Char)} {ss : List CropStep} (h : CropTrace i m ts ss) :
    ∀ s ∈ ss, i < s.n ∧ s.before = Call.runAll m ((ts.take (s.n - i - 1)).map .str) := by
  induction h with
  | nil => simp
  | @cons i m t ts l m' p ss h1 h2 h3 h4 ih =>
    intro s hs
    rcases List.mem_cons.1 hs with rfl | hs
    · simp [Call.runAll]
    · obtain ⟨h5, h6⟩ := ih s hs
      refine ⟨by omega, ?_⟩
      have : s.n - i - 1 = (s.n - (i + 1) - 1) + 1 := by omega
      rw [this, List.take_succ_cons, List.map_cons, Call.runAll]
      have hstr : (Call.run m (.str t)).1 = m' := by
        show (m.processStr t).1 = m'
        unfold processStr; rw [h1]; exact congrArg Prod.fst h2
      rw [hstr]; exact h6

/-- The machine before a line of a file: no offsets, and a printable mode if its values are. -/
theorem trace_clear {ts : List (List Char)} {ss : List CropStep} (h : CropTrace 0 newNull ts ss) (s : CropStep)
    (hs : s ∈ ss) : Clear s.before ∧ ModeOK s.before.mode ∧ ModeAll Named s.before.mode ∧
      ∀ k g, s.before.mode k = some g → g.ws = false := by
  obtain ⟨-, hb⟩ := trace_before h s hs
  have hok : ∀ c ∈ (ts.take (s.n - 0 - 1)).map Call.str, c.OK newNull.axes newNull.absPos.unit := by
    intro c hc
    obtain ⟨t, -, rfl⟩ := List.mem_map.1 hc
    trivial
  have hn : ∀ c ∈ (ts.take (s.n - 0 - 1)).map Call.str, c.All Named := by
    intro c hc
    obtain ⟨t, -, rfl⟩ := List.mem_map.1 hc
    trivial
  have hp := path_calls _ newNull (newWith_wf _ _) hok
  rw [← hb] at hp
  have h1 := C40_reachable _ newNull (newWith_wf _ _) null_ok.1 null_ok.2 (fun k g hg => by cases hg) hok hn
  rw [← hb] at h1
  exact ⟨Clear.of_frame ⟨newWith_wf _ _, rfl, new_plain.noOffsets, fun _ => rfl⟩ hp.frame (hp.wf (newWith_wf _ _)), h1⟩

theorem plane_axes (a n : Axis) (hn : n ∈ xyz) (ha : a ∈ xyz) : a = n ∨ a ∈ inPlane n := by
  cases n <;> cases a <;> revert hn ha <;> decide

theorem lookup_map (l : List Axis) (v : Axis → ℚ) (a : Axis) :
    Position.lookup (l.map (fun b => (b, v b))) a = if a ∈ l then some (v a) else none := by
  induction l with
  | nil => rfl
  | cons b l ih =>
    unfold Position.lookup at ih ⊢
    rw [List.map_cons, List.find?_cons]
    by_cases h : b = a
    · subst h; simp
    · have : (b == a) = false := by simpa using h
      simp only [this, ih, List.mem_cons, (Ne.symm h : ¬ a = b), false_or]

/-- The preamble read by a machine, line by line. -/
theorem preamble_run {m : Machine} {n : Axis} (hm : Clear m) (hc : Croppable m n) (h1 : ModeOK m.mode)
    (h2 : ModeAll Named m.mode) (h3 : ∀ k g, m.mode k = some g → g.ws = false)
    {M : Machine} (hM : Clear M) (hinc : m.mode.distance = none → M.incremental = false) :
    ∃ pre up over down M₀ M₁ M₂ M₃, cropPreamble m.copy = (pre ++ [up, over, down, []], none) ∧
      readLines M pre = (M₀, none) ∧ M₀.processStr up = (M₁, none) ∧ M₁.processStr over = (M₂, none) ∧
      readLines M₂ [down, []] = (M₃, none) ∧
      (∀ a, M₀.absPos.val a = M.absPos.val a) ∧
      (M₁.absPos.val n = m.rangeMax.val n ∧ ∀ a, a ≠ n → M₁.absPos.val a = M.absPos.val a) ∧
      (M₂.absPos.val n = m.rangeMax.val n ∧ ∀ a, a ≠ n → M₂.absPos.val a = m.absPos.val a) ∧
      (∀ a, M₃.absPos.val a = m.absPos.val a) ∧
      (∀ k, k ≠ 1 → (m.mode k = none → M₃.mode k = M.mode k) ∧
        ∀ g, m.mode k = some g → ∃ g', M₃.mode k = some g' ∧ SameGCode g g') ∧
      M₃.mode 1 = some ⟨.rapidMove, ⟨'G', .num 0⟩, [], false⟩ := by
  have hpm : PrintableMode m.mode := ⟨h1, h2, h3, hc.words, hc.noG96S⟩
  obtain ⟨M₀, a1, a2, a3, a4, a5⟩ := modeLines_read hpm hc.notCanned hc.absolute hM hinc
  have hnx : n ∈ xyz := by
    rcases plane_table _ n (normalOf_crop hc.plane) with ⟨rfl, -⟩ | ⟨rfl, -⟩ | ⟨rfl, -⟩ <;> decide
  have hin : (∀ a ∈ inPlane n, a ∈ xyz ∧ a ≠ n) ∧ (inPlane n).Nodup := by
    revert hnx; cases n <;> decide
  have hz : ∀ a, m.absPos.val a - m.state.offset.val a = m.absPos.val a := fun a => by rw [hm.offset, sub_zero]
  have heq := preamble_eq m hm.wf hm.axes n hc.plane
  simp only [hz] at heq
  have hout : ∀ {K : Machine}, Clear K → ∀ a, a ∉ xyz → K.absPos.val a = 0 :=
    fun hK a ha => abs_outside _ hK.wf a (by rw [hK.axes]; exact ha)
  have hinc' : ∀ {K K' : Machine}, K.incremental = false →
      K'.mode = Function.update K.mode 1 (some ⟨.rapidMove, ⟨'G', .num 0⟩, [], false⟩) → K'.incremental = false := by
    intro K K' h e
    unfold incremental at h ⊢
    have : K'.mode.distance = K.mode.distance := by
      show K'.mode 3 = K.mode 3
      rw [e, Function.update_of_ne (by decide)]
    rw [this]; exact h
  obtain ⟨M₁, b1, b2, b3, b4⟩ := rapid_read a2 a3 [(n, m.rangeMax.val n)] (by simpa using hnx) (by simp)
    (by simpa using hc.top)
  have b5 := hinc' a3 b3
  obtain ⟨M₂, c1, c2, c3, c4⟩ := rapid_read b2 b5 ((inPlane n).map (fun a => (a, m.absPos.val a)))
    (by
      intro c hcm
      obtain ⟨a, ha, rfl⟩ := List.mem_map.1 hcm
      exact (hin.1 a ha).1)
    (by rw [List.map_map]; simpa [Function.comp_def] using hin.2)
    (by
      intro c hcm
      obtain ⟨a, ha, rfl⟩ := List.mem_map.1 hcm
      exact hc.pos a (hin.1 a ha).1)
  have c5 := hinc' b5 c3
  obtain ⟨M₃, d1, d2, d3, d4⟩ := rapid_read c2 c5 [(n, m.absPos.val n)] (by simpa using hnx) (by simp)
    (by simpa using hc.pos n hnx)
  have e1 : M₁.absPos.val n = m.rangeMax.val n := by
    rw [b4]; simp [Position.lookup]
  have e2 : ∀ a, a ≠ n → M₁.absPos.val a = M.absPos.val a := by
    intro a ha
    rw [b4, ← a4]
    have : Position.lookup [(n, m.rangeMax.val n)] a = none := by
      simp [Position.lookup, Ne.symm ha]
    rw [this]; rfl
  have e3 : M₂.absPos.val n = m.rangeMax.val n := by
    rw [c4, lookup_map, if_neg (fun h => (hin.1 n h).2 rfl)]; exact e1
  have e4 : ∀ a, a ≠ n → M₂.absPos.val a = m.absPos.val a := by
    intro a ha
    by_cases hx : a ∈ xyz
    · rw [c4, lookup_map, if_pos ((plane_axes a n hnx hx).resolve_left ha)]; rfl
    · rw [hout c2 a hx, hout hm a hx]
  have e5 : ∀ a, M₃.absPos.val a = m.absPos.val a := by
    intro a
    rw [d4]
    by_cases ha : a = n
    · subst ha; simp [Position.lookup]
    · have : Position.lookup [(n, m.absPos.val n)] a = none := by
        simp [Position.lookup, Ne.symm ha]
      rw [this]; exact e4 a ha
  refine ⟨cropModeLines m.mode ++ [cropMoveComment], _, _, (rapidTo [(n, m.absPos.val n)]).str, M₀, M₁, M₂, M₃, ?_, ?_, b1, c1, ?_, a4, ⟨e1, e2⟩, ⟨e3, e4⟩, e5, ?_, ?_⟩
  · rw [heq, List.append_assoc]; rfl
  · rw [readLines_append, a1]
    simp [andThen, readLines, (read_comment M₀).2.1]
  · simp [readLines, d1, andThen, (read_comment M₃).2.2]
  · intro k hk
    have : M₃.mode k = M₀.mode k := by
      rw [d3, Function.update_of_ne hk, c3, Function.update_of_ne hk, b3, Function.update_of_ne hk]
    rw [this]
    exact a5 k
  · rw [d3, Function.update_self]

/-- **C64**, as far as it holds: in absolute distance mode without offsets and without an active
canned cycle, the preamble printed before the first kept line puts any machine without offsets at the
position, and in every modal group but the motion group into the mode, that the script's machine had
there.  What is missing: the motion mode (`C64_motion_refuted`) and incremental distance mode
(`C64_incremental_refuted`). -/
theorem C64_position_partial {ts : List (List Char)} {ss : List CropStep} (h : CropTrace 0 newNull ts ss) (s : CropStep)
    (hs : s ∈ ss) (n : Axis) (hc : Croppable s.before n) (M : Machine) (hM : Clear M)
    (hinc : s.before.mode.distance = none → M.incremental = false) :
    ∃ out M', cropPreamble s.before.copy = (out, none) ∧ readLines M out = (M', none) ∧
      (∀ a, M'.absPos.val a = s.before.absPos.val a) ∧
      (∀ k, k ≠ 1 → (s.before.mode k = none → M'.mode k = M.mode k) ∧
        ∀ g, s.before.mode k = some g → ∃ g', M'.mode k = some g' ∧ SameGCode g g') ∧
      M'.mode 1 = some ⟨.rapidMove, ⟨'G', .num 0⟩, [], false⟩ := by
  obtain ⟨hcl, h1, h2, h3⟩ := trace_clear h s hs
  obtain ⟨pre, up, over, down, M₀, M₁, M₂, M₃, a1, a2, a3, a4, a5, -, -, -, a9, a10, a11⟩ :=
    preamble_run hcl hc h1 h2 h3 hM hinc
  refine ⟨_, M₃, a1, ?_, a9, a10, a11⟩
  have : [up, over, down, []] = [up, over] ++ [down, []] := rfl
  rw [this, readLines_append, a2]
  simp only [andThen]
  rw [readLines_append]
  simp only [readLines, andThen, a3, a4]
  exact a5

/-- **C65**: after the comments and the mode (which do not move the machine) the preamble consists of
a rapid move along the normal axis to the greatest coordinate that any position of the removed lines
had there, a move in the plane at exactly that level, and a move along the normal axis to the position
before the first kept line. -/
theorem C65_level {ts : List (List Char)} {ss : List CropStep} (h : CropTrace 0 newNull ts ss) (s : CropStep)
    (hs : s ∈ ss) (n : Axis) (hc : Croppable s.before n) (M : Machine) (hM : Clear M)
    (hinc : s.before.mode.distance = none → M.incremental = false) :
    ∃ pre up over down M₀ M₁ M₂ M₃ top, cropPreamble s.before.copy = (pre ++ [up, over, down, []], none) ∧
      readLines M pre = (M₀, none) ∧ M₀.processStr up = (M₁, none) ∧ M₁.processStr over = (M₂, none) ∧
      readLines M₂ [down, []] = (M₃, none) ∧
      IsGreatest {x | ∃ p ∈ newNull.absPos :: Call.visitedAll newNull ((ts.take (s.n - 1)).map .str), x = p.val n} top ∧
      (∀ a, M₀.absPos.val a = M.absPos.val a) ∧
      (M₁.absPos.val n = top ∧ ∀ a, a ≠ n → M₁.absPos.val a = M.absPos.val a) ∧
      (M₂.absPos.val n = top ∧ ∀ a, a ≠ n → M₂.absPos.val a = s.before.absPos.val a) ∧
      (∀ a, M₃.absPos.val a = s.before.absPos.val a) := by
  obtain ⟨hcl, h1, h2, h3⟩ := trace_clear h s hs
  obtain ⟨pre, up, over, down, M₀, M₁, M₂, M₃, a1, a2, a3, a4, a5, a6, a7, a8, a9, -⟩ :=
    preamble_run hcl hc h1 h2 h3 hM hinc
  refine ⟨pre, up, over, down, M₀, M₁, M₂, M₃, s.before.rangeMax.val n, a1, a2, a3, a4, a5, ?_, a6, a7, a8, a9⟩
  have hnx : n ∈ xyz := by
    rcases plane_table _ n (normalOf_crop hc.plane) with ⟨rfl, -⟩ | ⟨rfl, -⟩ | ⟨rfl, -⟩ <;> decide
  have hb := (trace_before h s hs).2
  have := ((C33_box xyz Mode.null ((ts.take (s.n - 0 - 1)).map .str) (by
    intro c hcm
    obtain ⟨t, -, rfl⟩ := List.mem_map.1 hcm
    trivial)).2 n hnx).2.1
  rw [hb]
  exact this

/-- The lines printed, read by a new machine. -/
def cropRun (r : String) (ls : List String) : Option (Machine × Option Err) :=
  (rangeType r.toList).map (fun r => readLines newNull (crop r (ls.map String.toList)).1)

/-- **C64**, refuted for incremental mode: cropping the third line of this file leaves a machine that
reads the output 5 higher than the one that reads the whole file. -/
theorem C64_incremental_refuted :
    let file := ["G91 G17 G1 F100 Z5", "X2", "X3"]
    let m := readLines newNull (file.map String.toList)
    (cropRun "3:" file).map (fun M => (M.1.absPos.val .X, M.1.absPos.val .Z, M.2)) = some (5, 10, none) ∧
      (m.1.absPos.val .X, m.1.absPos.val .Z, m.2) = (5, 5, none) := by
  decide +kernel

/-- **C64**, refuted for the motion mode: the cut at the third line of this file becomes a rapid move. -/
theorem C64_motion_refuted :
    let file := ["G17 G1 F100 X1", "Z5", "X2"]
    let m := readLines newNull (file.map String.toList)
    (cropRun "3:" file).map (fun M => (M.1.mode.motion.map GCode.cls, M.2)) = some (some .rapidMove, none) ∧
      (m.1.mode.motion.map GCode.cls, m.2) = (some .linearMove, none) := by
  decide +kernel

/-- The machine before the fourth line of this file satisfies the assumptions. -/
def cropSample : Machine := (readLines newNull (["G90 G17 G1 F100 X1", "Z5", "X2.5 Y-7 Z4"].map String.toList)).1

theorem cropSample_run : Call.runAll newNull (["G90 G17 G1 F100 X1", "Z5", "X2.5 Y-7 Z4"].map (fun s => Call.str s.toList)) = cropSample := by
  have h1 : (newNull.processStr "G90 G17 G1 F100 X1".toList).2 = none := by decide +kernel
  have h2 : ((newNull.processStr "G90 G17 G1 F100 X1".toList).1.processStr "Z5".toList).2 = none := by decide +kernel
  have h3 : (((newNull.processStr "G90 G17 G1 F100 X1".toList).1.processStr "Z5".toList).1.processStr
    "X2.5 Y-7 Z4".toList).2 = none := by decide +kernel
  simp only [cropSample, List.map_cons, List.map_nil, Call.runAll, Call.run, readLines, andThen]
  generalize hx : newNull.processStr "G90 G17 G1 F100 X1".toList = x at *
  obtain ⟨x, _ | e⟩ := x
  · generalize hy : x.processStr "Z5".toList = y at *
    obtain ⟨y, _ | e⟩ := y
    · generalize hz : y.processStr "X2.5 Y-7 Z4".toList = z at *
      obtain ⟨z, _ | e⟩ := z
      · simp only [hy, hz]
      · cases h3
    · cases h2
  · cases h1

theorem cropSample_croppable : Croppable cropSample .Z := by
  have hv : (cropSample.rangeMax.val .Z, cropSample.absPos.val .X, cropSample.absPos.val .Y, cropSample.absPos.val .Z) =
      (5, 5 / 2, -7, 4) := by decide +kernel
  simp only [Prod.mk.injEq] at hv
  obtain ⟨v1, v2, v3, v4⟩ := hv
  have hg : cropSample.mode.gcodes = [⟨.linearMove, ⟨'G', .num 1⟩, [], false⟩, ⟨.selectXYPlane, ⟨'G', .num 17⟩, [], false⟩,
      ⟨.absoluteDistanceMode, ⟨'G', .num 90⟩, [], false⟩, ⟨.feedRate, ⟨'F', .num 100⟩, [], false⟩] := by decide +kernel
  have hw : ∀ k g, cropSample.mode k = some g → g ∈ cropSample.mode.gcodes := by
    intro k g hk
    have hok : ModeOK cropSample.mode := by
      have := C35_history (["G90 G17 G1 F100 X1", "Z5", "X2.5 Y-7 Z4"].map (fun s => Call.str s.toList)) newNull
        (newWith_wf _ _) null_ok.1 (by simp [Call.OK])
      rwa [cropSample_run] at this
    exact (mem_gcodes _ g).2 ⟨k, group_named _ _ (hok k g hk).1, hk⟩
  refine ⟨by decide +kernel, ⟨5, 0, by omega, by norm_num, by rw [v1]; norm_num⟩, ?_, ?_, ?_, ?_, by decide +kernel⟩
  · intro a ha
    cases a <;> first | exact absurd ha (by decide) | skip
    · exact ⟨25, 1, by omega, by norm_num, by rw [v2]; norm_num⟩
    · exact ⟨-7, 0, by omega, by norm_num, by rw [v3]; norm_num⟩
    · exact ⟨4, 0, by omega, by norm_num, by rw [v4]; norm_num⟩
  · intro k g hk w hwm
    have := hw k g hk
    rw [hg] at this
    simp only [List.mem_cons, List.not_mem_nil, or_false] at this
    rcases this with rfl | rfl | rfl | rfl <;> simp only [List.mem_cons, List.not_mem_nil, or_false] at hwm <;> subst hwm
    · exact ⟨⟨1, 0, by omega, by omega, by simp⟩, by decide, fun h => absurd h (by decide)⟩
    · exact ⟨⟨17, 0, by omega, by omega, by simp⟩, by decide, fun h => absurd h (by decide)⟩
    · exact ⟨⟨90, 0, by omega, by omega, by simp⟩, by decide, fun h => absurd h (by decide)⟩
    · exact ⟨⟨100, 0, by omega, by norm_num, by simp⟩, by decide, fun h => absurd h (by decide)⟩
  · intro g s hk hk'
    have := hw 202 s hk'
    rw [hg] at this
    have h0 : cropSample.mode 202 = none := by decide +kernel
    rw [h0] at hk'; cases hk'
  · intro g hk
    have := hw 1 g hk
    rw [hg] at this
    simp only [List.mem_cons, List.not_mem_nil, or_false] at this
    rcases this with rfl | rfl | rfl | rfl <;> decide

end Pygcode
