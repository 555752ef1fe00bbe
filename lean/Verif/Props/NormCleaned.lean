import Verif.Lemmas.Deal
import Verif.Props.NormArc
import Verif.Props.NormInvalid

/-!
# C89: `--rm_invalid_modal` is removing the words first
-/

namespace Pygcode
open Props Machine Spec

/-! ## Specification -/

/-- The second line is the first without the left-over words that mean nothing to the machine. -/
def LessWords (m : Machine) (l l' : Line) : Prop :=
  l'.block.gcodes = l.block.gcodes ∧ l'.block.modalParams = validWords m l.block ∧
    l'.comment = l.comment ∧ l'.macro? = l.macro?

/-- The second file is the first without the words that mean nothing where they are reached. -/
def Cleaned (m : Machine) : List (List Char) → List (List Char) → Prop
  | [], [] => True
  | t :: ts, t' :: ts' => ∃ l l', Line.ofText t = .ok l ∧ Line.ofText t' = .ok l' ∧ LessWords m l l' ∧
      Cleaned (m.processGcodes l.block.gcodes (validWords m l.block)).1 ts ts'
  | _, _ => False

/-- The same outcome, with a machine that refuses invalid words. -/
def strictNorm (r : NormRes) : NormRes := ⟨r.out, strict r.m, r.status⟩

/-- The option put on or off. -/
def NormOpts.invalid (o : NormOpts) (b : Bool) : NormOpts := { o with rmInvalid := b }

/-! ## The flag changes nothing else -/

theorem strictNorm_andThen (r : NormRes) (f g : Machine → NormRes) (h : ∀ m, g (strict m) = strictNorm (f m)) :
    (strictNorm r).andThen g = strictNorm (r.andThen f) := by
  obtain ⟨out, m, s⟩ := r
  cases s with
  | done => simp only [strictNorm, NormRes.andThen, h m]
  | raised e => rfl
  | running => rfl

theorem strictNorm_ofM (r : MRes) : NormRes.ofM (strictRes r) = strictNorm (.ofM r) := by
  obtain ⟨m, - | e⟩ := r <;> rfl

theorem strictNorm_put (m : Machine) (r : Except Err (List (List Char))) :
    NormRes.put (strict m) r = strictNorm (.put m r) := by
  cases r <;> rfl

theorem strict_gcodes (m : Machine) (gs : List GCode) :
    (strict m).processGcodes gs [] = strictRes (m.processGcodes gs []) := by
  rw [processGcodes_sorted, processGcodes_sorted, strict_processAll]

variable (o : NormOpts) (x : ArcOpts) (fl : Floats) (fuel : ℕ)

theorem strict_putProcess (m : Machine) (gs : List GCode) :
    (o.invalid false).putProcess (strict m) gs = strictNorm ((o.invalid true).putProcess m gs) := by
  unfold NormOpts.putProcess
  by_cases h : gs = []
  · rw [if_pos h, if_pos h]; rfl
  · rw [if_neg h, if_neg h, strictNorm_put]
    exact strictNorm_andThen _ _ _ (fun m => by rw [strict_gcodes, strictNorm_ofM])

theorem strict_putAll (m : Machine) (gs : List GCode) (s : Status) :
    (o.invalid false).putAll (strict m) gs s = strictNorm ((o.invalid true).putAll m gs s) := by
  rw [putAll_eq, putAll_eq]; rfl

theorem strict_putExpansion (m : Machine) (g : GCode) :
    (o.invalid false).putExpansion fuel (strict m) g = strictNorm ((o.invalid true).putExpansion fuel m g) := by
  unfold NormOpts.putExpansion
  have : (strict m).pos = m.pos := rfl
  rw [this]
  cases m.pos with
  | error e => rfl
  | ok p => exact strict_putAll o m _ _

theorem strict_expandLine (m : Machine) (gs : List GCode) (c : Option Comment) :
    (o.invalid false).expandLine fuel (strict m) gs c = strictNorm ((o.invalid true).expandLine fuel m gs c) := by
  unfold NormOpts.expandLine
  split
  · rw [strict_putProcess]
    refine strictNorm_andThen _ _ _ (fun m => ?_)
    rw [strictNorm_put]
    refine strictNorm_andThen _ _ _ (fun m => ?_)
    rw [strict_putExpansion]
    refine strictNorm_andThen _ _ _ (fun m => ?_)
    rw [strict_gcodes, strictNorm_ofM]
    refine strictNorm_andThen _ _ _ (fun m => ?_)
    rw [strict_putProcess]
    refine strictNorm_andThen _ _ _ (fun m => ?_)
    split_ifs
    · rfl
    · exact strictNorm_put m _
  · rfl

theorem strict_putArc (hfl : ∀ m g vs, fl (strict m) g vs = fl m g vs) (m : Machine) (g : GCode) :
    (o.invalid false).putArc x fl (strict m) g = strictNorm ((o.invalid true).putArc x fl m g) := by
  unfold NormOpts.putArc
  have : (strict m).pos = m.pos := rfl
  rw [this]
  cases m.pos with
  | error e => rfl
  | ok p =>
    simp only
    cases x.method g.word with
    | error e => rfl
    | ok am =>
      simp only
      have : (o.invalid false).arcMoves x fl (strict m) p am g = (o.invalid true).arcMoves x fl m p am g := by
        unfold NormOpts.arcMoves
        simp only [hfl]
        rfl
      rw [this]
      exact strict_putAll o m _ _

theorem strict_arcLine (hfl : ∀ m g vs, fl (strict m) g vs = fl m g vs) (m : Machine) (gs : List GCode)
    (c : Option Comment) :
    (o.invalid false).arcLine x fl (strict m) gs c = strictNorm ((o.invalid true).arcLine x fl m gs c) := by
  unfold NormOpts.arcLine
  split
  · rw [strict_putProcess]
    refine strictNorm_andThen _ _ _ (fun m => ?_)
    rw [strictNorm_put]
    refine strictNorm_andThen _ _ _ (fun m => ?_)
    rw [strict_putArc o x fl hfl]
    refine strictNorm_andThen _ _ _ (fun m => ?_)
    rw [strict_gcodes, strictNorm_ofM]
    refine strictNorm_andThen _ _ _ (fun m => ?_)
    rw [strict_putProcess]
    refine strictNorm_andThen _ _ _ (fun m => ?_)
    split_ifs
    · rfl
    · exact strictNorm_put m _
  · rfl

/-! ## One line -/

/-- The letters of the words kept are different. -/
def KeptOnce (m : Machine) (l : Line) : Prop := ((validWords m l.block).map Word.letter).Nodup

theorem cleanBlock_once {m : Machine} (hn : ModeAll Named m.mode) {b : Block}
    (hb : ∀ w ∈ b.modalParams, wordClass w = none) :
    (((validWords m b).map Word.letter).Nodup → m.cleanBlock b = .ok { b with modalParams := validWords m b }) ∧
      (¬ ((validWords m b).map Word.letter).Nodup → m.cleanBlock b = .error .param) := by
  obtain ⟨h1, h2⟩ := C44_clean m (fun g hg => hn 1 g hg) b hb
  unfold validWords
  cases hmo : m.mode.motion with
  | none => exact ⟨fun _ => h1 (.inl hmo), fun h => absurd List.nodup_nil h⟩
  | some g =>
    simp only
    by_cases hx : ∃ x ∈ b.gcodes, x.cls.group = some 1
    · rw [if_pos hx]
      exact ⟨fun _ => h1 (.inr hx), fun h => absurd List.nodup_nil h⟩
    · rw [if_neg hx]
      push Not at hx
      exact h2 g hmo hx

theorem strict_processGcodes {m : Machine} (hok : ModeOK m.mode) (hn : ModeAll Named m.mode) (b : Block)
    (hb : ∀ w ∈ b.modalParams, wordClass w = none) :
    (strict m).processGcodes b.gcodes (validWords m b) = strictRes (m.processGcodes b.gcodes (validWords m b)) := by
  unfold processGcodes
  rw [modalGcode_valid m hok hn b hb]
  cases m.modalGcode (validWords m b) with
  | error e => rfl
  | ok og => exact strict_processAll _ m

/-- What is done with a line that was read (for the proofs). -/
noncomputable def NormOpts.branch (m : Machine) (l : Line) (gs : List GCode) : NormRes :=
  if (x.on && gs.any fun g => g.cls.isSub .arcMove) = true then o.arcLine x fl m gs l.comment
  else if (o.cannedExpand && gs.any fun g => decide (g.word ∈ o.cannedCodes)) = true then
    o.expandLine fuel m gs l.comment
  else o.plainLine m l gs

theorem lineA_clean {m : Machine} {t : List Char} {l : Line} (hl : Line.ofText t = .ok l) :
    (o.invalid true).lineA x fl fuel m t =
      match m.cleanBlock l.block with
      | .error e => ⟨[], m, .raised e⟩
      | .ok b =>
        match m.blockModalGcodes b with
        | .error e => ⟨[], m, .raised e⟩
        | .ok gs => (o.invalid true).branch x fl fuel m { l with block := b } gs := by
  unfold NormOpts.lineA
  rw [hl]
  have hb : (o.invalid true).rmInvalid = true := rfl
  simp only [hb, if_true]
  cases m.cleanBlock l.block with
  | error e => rfl
  | ok b =>
    simp only [Except.map]
    cases m.blockModalGcodes b <;> rfl

theorem lineA_kept {m : Machine} {t : List Char} {l : Line} (hl : Line.ofText t = .ok l) :
    (o.invalid false).lineA x fl fuel m t =
      match m.blockModalGcodes l.block with
      | .error e => ⟨[], m, .raised e⟩
      | .ok gs => (o.invalid false).branch x fl fuel m l gs := by
  unfold NormOpts.lineA
  rw [hl]
  have hb : (o.invalid false).rmInvalid = false := rfl
  simp only [hb, Bool.false_eq_true, if_false]
  cases m.blockModalGcodes l.block <;> rfl

/-- One line, with any options. -/
theorem cleaned_line (hfl : ∀ m g vs, fl (strict m) g vs = fl m g vs) {m : Machine} (hok : ModeOK m.mode)
    (hn : ModeAll Named m.mode) {t t' : List Char} {l l' : Line} (hl : Line.ofText t = .ok l)
    (hl' : Line.ofText t' = .ok l') (h : LessWords m l l') (hk : KeptOnce m l) :
    (o.invalid false).lineA x fl fuel (strict m) t' = strictNorm ((o.invalid true).lineA x fl fuel m t) := by
  have hb := line_block_ok hl
  obtain ⟨h1, h2, h3, h4⟩ := h
  have hc := (cleanBlock_once hn hb.unused).1 hk
  have hmod : (strict m).blockModalGcodes l'.block =
      m.blockModalGcodes { l.block with modalParams := validWords m l.block } := by
    unfold blockModalGcodes
    rw [h1, h2, modalGcode_valid m hok hn l.block hb.unused]
  rw [lineA_clean o x fl fuel hl, lineA_kept o x fl fuel hl', hc]
  simp only [hmod]
  cases m.blockModalGcodes { l.block with modalParams := validWords m l.block } with
  | error e => rfl
  | ok gs =>
    simp only
    unfold NormOpts.branch
    by_cases c1 : (x.on && gs.any fun g => g.cls.isSub .arcMove) = true
    · rw [if_pos c1, if_pos c1, h3]
      exact strict_arcLine o x fl hfl m gs l.comment
    rw [if_neg c1, if_neg c1]
    by_cases c2 : ((o.invalid false).cannedExpand && gs.any fun g => decide (g.word ∈ (o.invalid false).cannedCodes)) = true
    · rw [if_pos c2, if_pos (show ((o.invalid true).cannedExpand &&
        gs.any fun g => decide (g.word ∈ (o.invalid true).cannedCodes)) = true from c2), h3]
      exact strict_expandLine o fuel m gs l.comment
    rw [if_neg c2, if_neg (show ¬ ((o.invalid true).cannedExpand &&
        gs.any fun g => decide (g.word ∈ (o.invalid true).cannedCodes)) = true from c2)]
    unfold NormOpts.plainLine
    simp only [h1, h2, h3, h4]
    have hpb : (strict m).processBlock l'.block =
        strictRes (m.processBlock { l.block with modalParams := validWords m l.block }) := by
      unfold processBlock
      rw [h1, h2]
      exact strict_processGcodes hok hn l.block hb.unused
    have hw : ∀ gs mp c mac, (o.invalid false).write gs mp c mac = (o.invalid true).write gs mp c mac := fun _ _ _ _ => rfl
    change (NormRes.put (strict m) (if o.full = true then (o.invalid false).write gs [] l.comment l.macro?
        else (o.invalid false).write l.block.gcodes (validWords m l.block) l.comment l.macro?)).andThen _ =
      strictNorm ((NormRes.put m (if o.full = true then (o.invalid true).write gs [] l.comment l.macro?
        else (o.invalid true).write l.block.gcodes (validWords m l.block) l.comment l.macro?)).andThen _)
    rw [hw, hw]
    generalize (if o.full = true then (o.invalid true).write gs [] l.comment l.macro?
        else (o.invalid true).write l.block.gcodes (validWords m l.block) l.comment l.macro?) = r
    cases r with
    | error e => rfl
    | ok ls =>
      simp only [NormRes.put, NormRes.andThen, hpb, strictNorm_ofM]
      rfl

/-! ## The machine after a line -/

/-- If it ends without error, its machine is the given one. -/
def Ends (r : NormRes) (z : MRes) : Prop := r.status = .done → z = (r.m, none)

theorem Ends.andThen {r : NormRes} {z : MRes} (h : Ends r z) {f : Machine → NormRes} {F : Machine → MRes}
    (hf : z.2 = none → Ends (f z.1) (F z.1)) : Ends (r.andThen f) (Machine.andThen z F) := by
  obtain ⟨out, m, s⟩ := r
  cases s with
  | done =>
    obtain rfl := h rfl
    exact hf rfl
  | raised e => intro h; cases h
  | running => intro h; cases h

theorem Ends.ofM (z : MRes) : Ends (.ofM z) z := by
  obtain ⟨m, - | e⟩ := z
  · exact fun _ => rfl
  · intro h; cases h

theorem Ends.put (m : Machine) (r : Except Err (List (List Char))) : Ends (.put m r) (m, none) := by
  cases r with
  | error e => intro h; cases h
  | ok ls => exact fun _ => rfl

theorem putProcess_ends (m : Machine) {gs : List GCode} (h : execSort gs = gs) :
    Ends (o.putProcess m gs) (m.processAll gs) := by
  unfold NormOpts.putProcess
  by_cases hg : gs = []
  · rw [if_pos hg, hg]; exact fun _ => rfl
  · rw [if_neg hg]
    refine Ends.andThen (z := (m, none)) (F := fun m => m.processAll gs) (.put m _) (fun _ => ?_)
    rw [processGcodes_sorted, h]
    exact .ofM _

theorem replaced_ends {gs befores afters : List GCode} {g : GCode} {c : Cls} (hs : execSort gs = gs)
    (h : splitGcodes gs c true = (befores, [g], afters)) (m : Machine) (d : Comment) (k : Option Comment)
    (f : Machine → NormRes) (hf : ∀ m, Ends (f m) (m, none)) :
    Ends ((o.putProcess m befores).andThen fun m =>
      (NormRes.put m (o.write [] [] (some d))).andThen fun m =>
      (f m).andThen fun m =>
      (NormRes.ofM (m.processGcodes [g] [])).andThen fun m =>
      (o.putProcess m afters).andThen fun m =>
      if k = none then ⟨[], m, .done⟩ else NormRes.put m (o.write [] [] k)) (m.processAll gs) := by
  obtain ⟨ha, -⟩ := split_append h
  rw [hs] at ha
  have hso : gs.Pairwise (fun a b => a.cls.order ≤ b.cls.order) := by
    have := (execSort_stable gs).2.1
    rw [hs] at this
    exact this
  have sb : befores.Sublist gs := by rw [ha]; exact List.sublist_append_left _ _
  have sa : afters.Sublist gs := by
    rw [ha]; exact (List.sublist_cons_self g afters).trans (List.sublist_append_right _ _)
  have hval : m.processAll gs = Machine.andThen (m.processAll befores) (fun m =>
      Machine.andThen (m, none) (fun m => Machine.andThen (m, none) (fun m => Machine.andThen (m.process g) (fun m =>
        Machine.andThen (m.processAll afters) (fun m => (m, none)))))) := by
    rw [ha, processAll_append]
    congr 1
    funext m'
    show m'.processAll (g :: afters) = Machine.andThen (m'.process g) _
    conv_lhs => unfold processAll
    congr 1
    funext m''
    rcases m''.processAll afters with ⟨_, _ | _⟩ <;> rfl
  rw [hval]
  refine (putProcess_ends o m (execSort_of_pairwise (hso.sublist sb))).andThen (fun _ => ?_)
  refine (Ends.put _ _).andThen (fun _ => ?_)
  refine (hf _).andThen (fun _ => ?_)
  refine Ends.andThen (z := Machine.process _ g) ?_ (fun _ => ?_)
  · rw [processGcodes_sorted, execSort_single, processAll_one]
    exact .ofM _
  refine (putProcess_ends o _ (execSort_of_pairwise (hso.sublist sa))).andThen (fun _ => ?_)
  split_ifs
  · exact fun _ => rfl
  · exact .put _ _

theorem putAll_ends (m : Machine) (gs : List GCode) (s : Status) : Ends (o.putAll m gs s) (m, none) := by
  rw [putAll_eq]
  exact fun _ => rfl

/-- One line leaves the machine where processing what is kept of the line does. -/
theorem line_ends {m : Machine} (hok : ModeOK m.mode) (hn : ModeAll Named m.mode) {t : List Char} {l : Line}
    (hl : Line.ofText t = .ok l) (hd : ((o.invalid true).lineA x fl fuel m t).status = .done) :
    KeptOnce m l ∧ m.processGcodes l.block.gcodes (validWords m l.block) =
      (((o.invalid true).lineA x fl fuel m t).m, none) := by
  have hb := line_block_ok hl
  obtain ⟨k1, k2⟩ := cleanBlock_once hn hb.unused
  rw [lineA_clean o x fl fuel hl] at hd ⊢
  by_cases hk : ((validWords m l.block).map Word.letter).Nodup
  swap
  · rw [k2 hk] at hd; cases hd
  refine ⟨hk, ?_⟩
  rw [k1 hk] at hd ⊢
  simp only at hd ⊢
  cases hgs : m.blockModalGcodes { l.block with modalParams := validWords m l.block } with
  | error e => rw [hgs] at hd; cases hd
  | ok gs =>
    rw [hgs] at hd
    simp only at hd ⊢
    have hun := validWords_unused m l.block hb.unused
    obtain ⟨-, -, -, -, e5, e6⟩ := effective_block (b := { l.block with modalParams := validWords m l.block })
      hb.ok hb.cls hb.ws hun hok hn hgs
    have hv : m.processGcodes l.block.gcodes (validWords m l.block) = m.processAll gs := e6
    rw [hv]
    revert hd
    unfold NormOpts.branch
    by_cases c1 : (x.on && gs.any fun g => g.cls.isSub .arcMove) = true
    · rw [if_pos c1]
      unfold NormOpts.arcLine
      split
      · rename_i befores g afters hsp
        refine replaced_ends (o.invalid true) e5 hsp m _ l.comment ((o.invalid true).putArc x fl · g) (fun m => ?_)
        unfold NormOpts.putArc
        cases m.pos with
        | error e => intro h; cases h
        | ok p =>
          simp only
          cases x.method g.word with
          | error e => intro h; cases h
          | ok am => exact putAll_ends _ m _ _
      · intro h; cases h
    rw [if_neg c1]
    by_cases c2 : ((o.invalid true).cannedExpand && gs.any fun g => decide (g.word ∈ (o.invalid true).cannedCodes)) = true
    · rw [if_pos c2]
      unfold NormOpts.expandLine
      split
      · rename_i befores g afters hsp
        refine replaced_ends (o.invalid true) e5 hsp m _ l.comment ((o.invalid true).putExpansion fuel · g) (fun m => ?_)
        unfold NormOpts.putExpansion
        cases m.pos with
        | error e => intro h; cases h
        | ok p => exact putAll_ends _ m _ _
      · intro h; cases h
    rw [if_neg c2]
    unfold NormOpts.plainLine
    refine Ends.andThen (z := (m, none)) (F := fun m => m.processAll gs) (.put m _) (fun _ => ?_)
    rw [← hv]
    exact .ofM _

/-! ## The file -/

/-- **C89**: `pygcode-norm --rm_invalid_modal`, with any other options, prints what the script prints without the
option for the file with the invalid words removed, and leads to the same machine. -/
theorem C89_first (hfl : ∀ m g vs, fl (strict m) g vs = fl m g vs) (ts : List (List Char)) :
    ∀ (ts' : List (List Char)) (m : Machine), m.WF → ModeOK m.mode → ModeAll Named m.mode → Cleaned m ts ts' →
    ((o.invalid true).loopA x fl fuel m ts).status = .done →
    (o.invalid false).loopA x fl fuel (strict m) ts' = strictNorm ((o.invalid true).loopA x fl fuel m ts) := by
  induction ts with
  | nil =>
    intro ts' m _ _ _ hc _
    cases ts' with
    | nil => rfl
    | cons t' ts' => exact hc.elim
  | cons t ts ih =>
    intro ts' m hwf hok hn hc hd
    cases ts' with
    | nil => exact hc.elim
    | cons t' ts' =>
      obtain ⟨l, l', hl, hl', hlw, hc⟩ := hc
      unfold NormOpts.loopA at hd ⊢
      have hd1 : ((o.invalid true).lineA x fl fuel m t).status = .done := by
        unfold NormRes.andThen at hd
        cases hs : ((o.invalid true).lineA x fl fuel m t).status with
        | done => rfl
        | raised e => rw [hs] at hd; simp only at hd; rw [hs] at hd; cases hd
        | running => rw [hs] at hd; simp only at hd; rw [hs] at hd; cases hd
      obtain ⟨hk, hm⟩ := line_ends o x fl fuel hok hn hl hd1
      rw [cleaned_line o x fl fuel hfl hok hn hl hl' hlw hk]
      have hbl := line_block_ok hl
      have hcall : (Call.gcodes l.block.gcodes (validWords m l.block)).OK m.axes m.absPos.unit := hbl.ok
      have w1 := (path_call m hwf _ hcall).wf hwf
      have w2 := kept_ok.call m hwf _ hcall (fun _ _ => trivial) hok
      have w3 := kept_named.call m hwf _ hcall hbl.cls hn
      simp only [Call.run] at w1 w2 w3
      rw [hm] at w1 w2 w3 hc
      generalize (o.invalid true).lineA x fl fuel m t = r at *
      obtain ⟨out, m', s⟩ := r
      simp only at hd1
      subst hd1
      simp only [NormRes.andThen] at hd
      have := ih ts' m' w1 w2 w3 hc hd
      simp only [strictNorm, NormRes.andThen, this]

/-! ## The script -/

theorem strict_finish (m : Machine) :
    (o.invalid false).finish (strict m) = strictNorm ((o.invalid true).finish m) := by
  unfold NormOpts.finish
  have h1 : ∀ m, (o.invalid false).finishComment (strict m) = strictNorm ((o.invalid true).finishComment m) := by
    intro m
    unfold NormOpts.finishComment
    change (if (o.spindleOff || o.zeroXY || o.zeroZ) = true then _ else _) =
      strictNorm (if (o.spindleOff || o.zeroXY || o.zeroZ) = true then _ else _)
    split_ifs
    · exact strictNorm_put m _
    · rfl
  have h2 : ∀ m, (o.invalid false).finishAbsolute (strict m) = strictNorm ((o.invalid true).finishAbsolute m) := by
    intro m
    unfold NormOpts.finishAbsolute
    change (if ((o.zeroXY || o.zeroZ) && !(match m.mode.distance with
      | some d => d.cls.isSub .absoluteDistanceMode
      | none => false)) = true then _ else _) = strictNorm (if ((o.zeroXY || o.zeroZ) && !(match m.mode.distance with
      | some d => d.cls.isSub .absoluteDistanceMode
      | none => false)) = true then _ else _)
    generalize ((o.zeroXY || o.zeroZ) && !(match m.mode.distance with
      | some d => d.cls.isSub .absoluteDistanceMode
      | none => false)) = b
    cases b
    · rfl
    · exact strictNorm_put m _
  have h3 : ∀ m, (o.invalid false).finishSpindle (strict m) = strictNorm ((o.invalid true).finishSpindle m) := by
    intro m
    unfold NormOpts.finishSpindle
    change (if o.spindleOff = true then _ else _) = strictNorm (if o.spindleOff = true then _ else _)
    split_ifs
    · exact strictNorm_put m _
    · rfl
  have h4 : ∀ m, (o.invalid false).finishXY (strict m) = strictNorm ((o.invalid true).finishXY m) := by
    intro m
    unfold NormOpts.finishXY
    change (if o.zeroXY = true then _ else _) = strictNorm (if o.zeroXY = true then _ else _)
    split_ifs
    · change (match (o.invalid true).safeHeight m with
        | .error e => _
        | .ok h => _) = _
      cases (o.invalid true).safeHeight m with
      | error e => rfl
      | ok h =>
        simp only
        rw [strictNorm_put]
        exact strictNorm_andThen _ _ _ (fun m => strictNorm_put m _)
    · rfl
  have h5 : ∀ m, (o.invalid false).finishZ (strict m) = strictNorm ((o.invalid true).finishZ m) := by
    intro m
    unfold NormOpts.finishZ
    change (if o.zeroZ = true then _ else _) = strictNorm (if o.zeroZ = true then _ else _)
    split_ifs
    · exact strictNorm_put m _
    · rfl
  rw [h1, strictNorm_andThen _ _ _ h2, strictNorm_andThen _ _ _ h3, strictNorm_andThen _ _ _ h4, strictNorm_andThen _ _ _ h5]

/-- **C89**: the whole script, from any starting mode. -/
theorem C89_script (hfl : ∀ m g vs, fl (strict m) g vs = fl m g vs) (md : Mode) (hok : ModeOK md)
    (hn : ModeAll Named md) (ts ts' : List (List Char)) (hc : Cleaned ((o.invalid true).machine md) ts ts')
    (hd : ((o.invalid true).loopA x fl fuel ((o.invalid true).machine md) ts).status = .done) :
    (o.invalid false).runA x fl fuel md ts' = strictNorm ((o.invalid true).runA x fl fuel md ts) := by
  unfold NormOpts.runA
  have h := newWith_wf xyz md
  have hwf : ((o.invalid true).machine md).WF := ⟨h.abs, h.absWF, h.sys, h.off, h.offWF, h.lo, h.hi⟩
  have hm : (o.invalid false).machine md = strict ((o.invalid true).machine md) := rfl
  rw [hm, C89_first o x fl fuel hfl ts ts' _ hwf hok hn hc hd]
  exact strictNorm_andThen _ _ _ (strict_finish o)

/-! ## There is such a file -/

/-- Words that are left over can be left out. -/
theorem dealt_without (p : Word → Bool) (ws : List Word) :
    ∃ ws', ws'.Sublist ws ∧ dealt ws' = ((dealt ws).1, (dealt ws).2.filter p) := by
  induction ws using List.reverseRecOn with
  | nil => exact ⟨[], .slnil, rfl⟩
  | append_singleton ws w ih =>
    obtain ⟨ws', h1, h2⟩ := ih
    have hd : ∀ ws : List Word, dealt (ws ++ [w]) = deal (dealt ws) w := by
      intro ws; unfold dealt; rw [List.foldl_append]; rfl
    rw [hd]
    unfold deal
    cases hg : give w (dealt ws).1 with
    | some ds =>
      refine ⟨ws' ++ [w], h1.append (.refl _), ?_⟩
      rw [hd, h2]
      unfold deal
      simp only [hg]
    | none =>
      simp only
      cases hw : wordClass w with
      | some c =>
        refine ⟨ws' ++ [w], h1.append (.refl _), ?_⟩
        rw [hd, h2]
        unfold deal
        simp only [hg, hw]
      | none =>
        by_cases hp : p w = true
        · refine ⟨ws' ++ [w], h1.append (.refl _), ?_⟩
          rw [hd, h2]
          unfold deal
          simp [hg, hw, hp]
        · refine ⟨ws', h1.trans (List.sublist_append_left _ _), ?_⟩
          rw [h2]
          simp [hp]

theorem words_without {ws : List Word} {gs : List GCode} {un : List Word} (h : words2gcodes ws = .ok (gs, un))
    (p : Word → Bool) : ∃ ws', ws'.Sublist ws ∧ words2gcodes ws' = .ok (gs, un.filter p) := by
  obtain ⟨ws', h1, h2⟩ := dealt_without p ws
  refine ⟨ws', h1, ?_⟩
  rw [words2gcodes_dealt] at h ⊢
  rw [h2]
  simp only
  cases hm : makeAll (dealt ws).1.reverse with
  | error e => rw [hm] at h; cases h
  | ok gs' =>
    rw [hm] at h
    cases h
    rfl

/-- Exactly printing words, a comment and a macro read back. -/
theorem words_reread (ws : List Word) (hp : ∀ w ∈ ws, PlainWord w) (c : Option Comment) (mac : Option (List Char))
    (hc : CommentOK mac c) (hmac : ∀ m', mac = some m' → ∃ r, m' = '%' :: r ∧ '\n' ∉ r)
    (hcm : mac = none ∨ ∀ t, c = some (.semicolon t) → t = []) {gs : List GCode} {mp : List Word}
    (hg : words2gcodes ws = .ok (gs, mp)) (ha : Block.assertLoop [] [] gs = .ok ()) :
    ∃ t, Line.ofText t = .ok ⟨⟨ws, gs, mp⟩, c, mac⟩ := by
  have hlast : ∀ x ∈ (joinWith [' '] (ws.map Word.str)).getLast?, isSpace x = false := by
    apply join_last
    intro s hs
    obtain ⟨w, hwm, rfl⟩ := List.mem_map.1 hs
    exact ⟨by simp [Word.str], plain_str_no_blank (hp w hwm)⟩
  obtain ⟨b, h1, h2⟩ := parts_printed (joinWith [' '] (ws.map Word.str)) [joinWith [' '] (ws.map Word.str)] c mac
    (plain_noSpecial ws hp) hlast (.inl rfl) hc hmac hcm
  refine ⟨joinWith [' '] ([joinWith [' '] (ws.map Word.str)] ++ (c.map Comment.str).toList ++ mac.toList), ?_⟩
  unfold Line.ofText
  rw [h1]
  have h3 := cleanText_words ws hp [] b blank_nil h2
  rw [List.nil_append] at h3
  have h4 : text2words (cleanText (joinWith [' '] (ws.map Word.str) ++ b)) = .ok ws := by
    rw [h3]
    exact (C03_remove_whitespace _ (fun w hw => (hp w hw).1) (fun w hw => (hp w hw).2.1)).1
  simp only [Block.ofText, h4, hg, ha, if_true]

theorem line_grouping {t : List Char} {l : Line} (h : Line.ofText t = .ok l) :
    words2gcodes l.block.words = .ok (l.block.gcodes, l.block.modalParams) ∧
      Block.assertLoop [] [] l.block.gcodes = .ok () := by
  unfold Line.ofText at h
  cases h1 : Line.parts t with
  | error e => rw [h1] at h; cases h
  | ok p =>
    obtain ⟨bs, c, m⟩ := p
    rw [h1] at h
    simp only at h
    cases h2 : Block.ofText bs with
    | error e => rw [h2] at h; cases h
    | ok b =>
      rw [h2] at h
      cases h
      simp only
      unfold Block.ofText at h2
      cases h3 : text2words (cleanText bs) with
      | error e => rw [h3] at h2; cases h2
      | ok ws =>
        rw [h3] at h2
        simp only at h2
        cases h4 : words2gcodes ws with
        | error e => rw [h4] at h2; cases h2
        | ok q =>
          obtain ⟨gs, mp⟩ := q
          rw [h4] at h2
          simp only [if_true] at h2
          cases h5 : Block.assertLoop [] [] gs with
          | error e => rw [h5] at h2; cases h2
          | ok u =>
            rw [h5] at h2
            cases h2
            exact ⟨h4, h5⟩

theorem validWords_filter (m : Machine) (b : Block) : ∃ p, validWords m b = b.modalParams.filter p := by
  unfold validWords
  cases m.mode.motion with
  | none => exact ⟨fun _ => false, by simp⟩
  | some g =>
    simp only
    split_ifs
    · exact ⟨fun _ => false, by simp⟩
    · exact ⟨_, rfl⟩

/-- **C89**: the words can be removed from a line, and nothing else, if all words of the line print exactly (and it
has no macro after a semicolon comment, which would become part of the comment). -/
theorem C89_remove (m : Machine) {t : List Char} {l : Line} (hl : Line.ofText t = .ok l)
    (hp : ∀ w ∈ l.block.words, PlainWord w)
    (hcm : l.macro? = none ∨ ∀ t, l.comment = some (.semicolon t) → t = []) :
    ∃ t' l', Line.ofText t' = .ok l' ∧ LessWords m l l' ∧ l'.block.words.Sublist l.block.words := by
  obtain ⟨h1, h2⟩ := line_grouping hl
  obtain ⟨p, hv⟩ := validWords_filter m l.block
  obtain ⟨ws', h3, h4⟩ := words_without h1 p
  obtain ⟨c1, c2⟩ := line_comment_ok hl
  obtain ⟨t', h5⟩ := words_reread ws' (fun w hw => hp w (h3.subset hw)) l.comment l.macro? c1 c2 hcm h4 h2
  exact ⟨t', _, h5, ⟨rfl, hv.symm, rfl, rfl⟩, h3⟩

/-- A file that can be cleaned. -/
theorem C89_exists (ts : List (List Char)) (h : ∀ t ∈ ts, ∃ l, Line.ofText t = .ok l ∧
      (∀ w ∈ l.block.words, PlainWord w) ∧ (l.macro? = none ∨ ∀ t, l.comment = some (.semicolon t) → t = [])) :
    ∀ m : Machine, ∃ ts', Cleaned m ts ts' := by
  induction ts with
  | nil => exact fun m => ⟨[], trivial⟩
  | cons t ts ih =>
    intro m
    obtain ⟨l, hl, hp, hcm⟩ := h t (by simp)
    obtain ⟨t', l', h1, h2, -⟩ := C89_remove m hl hp hcm
    obtain ⟨ts', h3⟩ := ih (fun t ht => h t (by simp [ht])) (m.processGcodes l.block.gcodes (validWords m l.block)).1
    exact ⟨t' :: ts', l, l', hl, h1, h2, h3⟩

/-! ## With expansions -/

theorem loopA_off (hoff : x.on = false) (ts : List (List Char)) :
    ∀ m, o.loopA x fl fuel m ts = o.loop fuel m ts := by
  have hl : ∀ m t, o.lineA x fl fuel m t = o.line fuel m t := by
    intro m t
    unfold NormOpts.lineA NormOpts.line
    simp only [hoff, Bool.false_and, Bool.false_eq_true, if_false]
    rfl
  induction ts with
  | nil => exact fun _ => rfl
  | cons t ts ih =>
    intro m
    unfold NormOpts.loopA NormOpts.loop
    rw [hl]
    congr 1
    funext m'
    exact ih m'

/-- Without `--arc_linearize`. -/
theorem C89_loop (ts ts' : List (List Char)) (m : Machine) (hwf : m.WF) (hok : ModeOK m.mode)
    (hn : ModeAll Named m.mode) (hc : Cleaned m ts ts') (hd : ((o.invalid true).loop fuel m ts).status = .done) :
    (o.invalid false).loop fuel (strict m) ts' = strictNorm ((o.invalid true).loop fuel m ts) := by
  have := C89_first o ⟨false, (.mid, .mid), 0⟩ (fun _ _ _ => []) fuel (fun _ _ _ => rfl) ts ts' m hwf hok hn hc
  rw [loopA_off _ _ _ _ rfl, loopA_off _ _ _ _ rfl] at this
  exact this hd

/-- **C67** with `--rm_invalid_modal`: the cycles that are left after removing the invalid words are expanded as
without the option. -/
theorem C89_expand (hr : o.rmGcodes = []) (hce : o.cannedExpand = true) (m : Machine) (hm : Sound m)
    (hax : xyz ⊆ m.axes) (ts ts' : List (List Char)) (hc : Cleaned m ts ts')
    (hts : LinesExpand (o.invalid false) fuel (strict m) ts') (hd : ((o.invalid true).loop fuel m ts).status = .done) :
    readLines (strict m) ts' = (strict ((o.invalid true).loop fuel m ts).m, none) ∧
      ∃ b, readLines (strict m) ((o.invalid true).loop fuel m ts).out = (b, none) ∧
        SameButMotion (strict ((o.invalid true).loop fuel m ts).m) b := by
  have h := C89_loop o fuel ts ts' m hm.wf hm.ok hm.named hc hd
  have hs : Sound (strict m) :=
    ⟨⟨hm.wf.abs, hm.wf.absWF, hm.wf.sys, hm.wf.off, hm.wf.offWF, hm.wf.lo, hm.wf.hi⟩, hm.ok, hm.named, hm.noWs, hm.sync, hm.dict⟩
  have := C67_same_partial (o.invalid false) hr rfl hce fuel (strict m) hs rfl hax ts' hts
  rw [h] at this
  exact this hd

/-! ## Cases -/

/-- A test for cleaned files. -/
def cleanedB (m : Machine) : List (List Char) → List (List Char) → Bool
  | [], [] => true
  | t :: ts, t' :: ts' =>
    match Line.ofText t, Line.ofText t' with
    | .ok l, .ok l' =>
      decide (l'.block.gcodes = l.block.gcodes ∧ l'.block.modalParams = validWords m l.block ∧
        l'.comment = l.comment ∧ l'.macro? = l.macro?) &&
        cleanedB (m.processGcodes l.block.gcodes (validWords m l.block)).1 ts ts'
    | _, _ => false
  | _, _ => false

theorem cleanedB_sound (ts : List (List Char)) : ∀ {m : Machine} {ts' : List (List Char)},
    cleanedB m ts ts' = true → Cleaned m ts ts' := by
  induction ts with
  | nil =>
    intro m ts' h
    cases ts' with
    | nil => trivial
    | cons => cases h
  | cons t ts ih =>
    intro m ts' h
    cases ts' with
    | nil => cases h
    | cons t' ts' =>
      unfold cleanedB at h
      cases hl : Line.ofText t with
      | error e => rw [hl] at h; cases h
      | ok l =>
        cases hl' : Line.ofText t' with
        | error e => rw [hl, hl'] at h; cases h
        | ok l' =>
          rw [hl, hl'] at h
          simp only [Bool.and_eq_true, decide_eq_true_eq] at h
          exact ⟨l, l', hl, hl', h.1, ih h.2⟩

/-- A drilling program with words that mean nothing: `Q5` before any motion, `I9` beside a `G0`, `Q7` under `G81`. -/
def drillSample : List (List Char) :=
  ["G17 G90 G21 G98 Q5", "G0 X1 Z5 I9", "G81 X2 Y1 Z-1 R1 F50", "X3 Q7 (next)", "G80", "X4"].map String.toList

/-- The same without them. -/
def drillCleaned : List (List Char) :=
  ["G17 G90 G21 G98", "G0 X1 Z5", "G81 X2 Y1 Z-1 R1 F50", "X3 (next)", "G80", ""].map String.toList

/-- A machine that ignores such words, as the script's does with the option. -/
def lenient : Machine := { newNull with ignoreInvalid := true }

theorem drillSample_cleaned : Cleaned lenient drillSample drillCleaned := cleanedB_sound _ (by decide +kernel)

theorem lenient_sound : Sound lenient :=
  have h := reader_null xyz
  ⟨⟨h.wf.abs, h.wf.absWF, h.wf.sys, h.wf.off, h.wf.offWF, h.wf.lo, h.wf.hi⟩, h.ok, h.named, h.sound.noWs, h.sound.sync,
    h.sound.dict⟩

theorem drillSample_done : ((expandOpts.invalid true).loop 100 lenient drillSample).status = .done := by decide +kernel

/-- What is printed for it; a machine that refuses invalid words would refuse the input. -/
example : ((expandOpts.invalid true).loop 100 lenient drillSample).out = ["G17 G90 G21 G98", "G00 X1 Z5", "F50",
      "(expanded: <GCodeDrillingCycle: G81{R1, X2, Y1, Z-1}>)", "G00 X2 Y1", "    Z1", "G01 Z-1", "G00 Z5",
      "(expanded: <GCodeDrillingCycle: G81{R1, X3, Y1, Z-1}>)", "G00 X3 Y1", "    Z1", "G01 Z-1", "G00 Z5",
      "(next)", "G80", ""].map String.toList ∧
    (readLines newNull drillSample).2 = some .invalidState := by decide +kernel

/-- The theorems apply to it. -/
example : (expandOpts.invalid false).loop 100 newNull drillCleaned =
    strictNorm ((expandOpts.invalid true).loop 100 lenient drillSample) :=
  C89_loop expandOpts 100 drillSample drillCleaned lenient lenient_sound.wf lenient_sound.ok lenient_sound.named
    drillSample_cleaned drillSample_done

example : readLines newNull drillCleaned = (strict ((expandOpts.invalid true).loop 100 lenient drillSample).m, none) ∧
    ∃ b, readLines newNull ((expandOpts.invalid true).loop 100 lenient drillSample).out = (b, none) ∧
      SameButMotion (strict ((expandOpts.invalid true).loop 100 lenient drillSample).m) b :=
  C89_expand expandOpts 100 rfl rfl lenient lenient_sound (Finset.Subset.refl _) drillSample drillCleaned drillSample_cleaned
    (linesExpandB_sound _ (by decide +kernel)) drillSample_done

example : (expandOpts.invalid false).runA ⟨false, (.mid, .mid), 0⟩ (fun _ _ _ => []) 100 Mode.null drillCleaned =
    strictNorm ((expandOpts.invalid true).runA ⟨false, (.mid, .mid), 0⟩ (fun _ _ _ => []) 100 Mode.null drillSample) :=
  C89_script expandOpts _ _ 100 (fun _ _ _ => rfl) Mode.null lenient_sound.ok lenient_sound.named drillSample drillCleaned
    (cleanedB_sound _ (by decide +kernel)) (by
      rw [loopA_off _ _ _ _ rfl]
      decide +kernel)

/-- A test for lines from which words can be removed. -/
def writableB (t : List Char) : Bool :=
  match Line.ofText t with
  | .ok l => l.block.words.all plainB && decide (l.macro? = none)
  | .error _ => false

theorem writableB_sound {t : List Char} (h : writableB t = true) : ∃ l, Line.ofText t = .ok l ∧
    (∀ w ∈ l.block.words, PlainWord w) ∧ (l.macro? = none ∨ ∀ t, l.comment = some (.semicolon t) → t = []) := by
  unfold writableB at h
  cases hl : Line.ofText t with
  | error e => rw [hl] at h; cases h
  | ok l =>
    rw [hl] at h
    simp only [Bool.and_eq_true, decide_eq_true_eq, List.all_eq_true] at h
    exact ⟨l, rfl, fun w hw => plainB_sound (h.1 w hw), .inl h.2⟩

example : ∃ ts', Cleaned lenient drillSample ts' :=
  C89_exists drillSample (fun t ht => writableB_sound (List.all_eq_true.1
    (by decide +kernel : drillSample.all writableB = true) t ht)) lenient

example : ∃ t' l l', Line.ofText "X3 Q7 (next)".toList = .ok l ∧ Line.ofText t' = .ok l' ∧ LessWords lenient l l' ∧
    l'.block.words.Sublist l.block.words := by
  obtain ⟨l, hl, hp, hm⟩ := writableB_sound (by decide +kernel : writableB "X3 Q7 (next)".toList = true)
  obtain ⟨t', l', h⟩ := C89_remove lenient hl hp hm
  exact ⟨t', l, l', hl, h⟩

end Pygcode
