import Verif.Model.Dialect

/-!
# C68: choosing a default dialect
-/

namespace Pygcode.Props
open Dialect

/-- What a user expects of a history: each `get` returns the name given last, each `set` succeeds.
Stated on the history alone. -/
def expected : (last : String) → List Use → List (Option String)
  | _, [] => []
  | d, .get :: us => some d :: expected d us
  | _, .set n :: us => none :: expected n us

/-- The values returned in a session. -/
def returned (rs : List Out) : List (Option String) :=
  rs.map fun r => match r with
    | .ok _ v => v
    | .fail => some "error"

/-- **C68.** After any sequence of calls the default is the initial one: every `get_default()` gives
`'linuxcnc'`, every `set_default(name)` returns `None`, none fails. -/
theorem C68_always (us : List Use) :
    returned (session setDefault moduleVars us) =
      us.map (fun u => match u with | .get => some "linuxcnc" | .set _ => none) := by
  induction us with
  | nil => rfl
  | cons u us ih =>
    cases u with
    | get =>
      have : getDefault.call moduleVars [] = .ok moduleVars (some "linuxcnc") := by decide
      simp only [session, this, returned, List.map_cons]
      exact congrArg _ ih
    | set n =>
      have : setDefault.call moduleVars [n] = .ok moduleVars none := by
        have h1 : setDefault.isLocal "name" = true := by decide
        have h2 : setDefault.isLocal "_DEFAULT" = true := by decide
        have h3 : ([n].length = setDefault.params.length) := rfl
        have h4 : setDefault.body = [.assign "_DEFAULT" "name"] := rfl
        have h5 : setDefault.params = ["name"] := rfl
        unfold Fn.call
        rw [if_pos h3, h4, h5]
        simp only [Fn.exec, h1, h2, if_true, List.zip_cons_cons, List.lookup_cons_self]
      simp only [session, this, returned, List.map_cons]
      exact congrArg _ ih

/-- The expectation fails exactly for the histories that look at the default after setting it to
something else. -/
theorem C68_expected_iff (us : List Use) :
    returned (session setDefault moduleVars us) = expected "linuxcnc" us ↔
      ∀ pre n mid post, us = pre ++ .set n :: (mid ++ .get :: post) → (∀ u ∈ mid, u = .get) → n = "linuxcnc" := by
  rw [C68_always]
  -- generalized over the last name set
  have gen : ∀ (d : String) (us : List Use),
      us.map (fun u => match u with | .get => some "linuxcnc" | .set _ => none) = expected d us ↔
        (d = "linuxcnc" ∨ ∀ mid post, us = mid ++ .get :: post → (∀ u ∈ mid, u = .get) → False) ∧
        ∀ pre n mid post, us = pre ++ .set n :: (mid ++ .get :: post) → (∀ u ∈ mid, u = .get) → n = "linuxcnc" := by
    intro d us
    induction us generalizing d with
    | nil => simp [expected]
    | cons u us ih =>
      cases u with
      | get =>
        simp only [List.map_cons, expected, List.cons.injEq, Option.some.injEq]
        rw [ih d]
        constructor
        · rintro ⟨rfl, -, h⟩
          refine ⟨.inl rfl, ?_⟩
          intro pre n mid post e hm
          cases pre with
          | nil => simp at e
          | cons p pre => exact h pre n mid post (List.cons.inj e).2 hm
        · rintro ⟨h1, h2⟩
          have hd : d = "linuxcnc" := by
            rcases h1 with h1 | h1
            · exact h1
            · exact (h1 [] us rfl (by simp)).elim
          refine ⟨hd.symm, .inl hd, ?_⟩
          intro pre n mid post e hm
          exact h2 (.get :: pre) n mid post (by rw [e]; rfl) hm
      | set n =>
        simp only [List.map_cons, expected, List.cons.injEq, true_and]
        rw [ih n]
        constructor
        · rintro ⟨h1, h2⟩
          constructor
          · right
            intro mid post e hm
            cases mid with
            | nil => simp at e
            | cons p mid =>
              have := hm p (by simp)
              rw [this] at e; simp at e
          · intro pre k mid post e hm
            cases pre with
            | nil =>
              simp only [List.nil_append, List.cons.injEq, Use.set.injEq] at e
              rcases h1 with h1 | h1
              · rw [← e.1, h1]
              · exact (h1 mid post e.2 hm).elim
            | cons p pre => exact h2 pre k mid post (List.cons.inj e).2 hm
        · rintro ⟨-, h2⟩
          constructor
          · by_cases hn : n = "linuxcnc"
            · exact .inl hn
            · right
              intro mid post e hm
              exact hn (h2 [] n mid post (by rw [e]; rfl) hm)
          · intro pre k mid post e hm
            exact h2 (.set n :: pre) k mid post (by rw [e]; rfl) hm
  rw [gen]
  constructor
  · exact fun h => h.2
  · exact fun h => ⟨.inl rfl, h⟩

/-- **C68 refuted.** The example in the doc string (dialects/__init__.py:43-50) does not hold. -/
theorem C68_refuted :
    returned (session setDefault moduleVars [.get, .set "reprap", .get]) ≠
      expected "linuxcnc" [.get, .set "reprap", .get] := by decide

/-- `set_default` with the missing declaration. -/
def setGlobal : Fn := { params := ["name"], globals := ["_DEFAULT"], body := setDefault.body }

/-- What is missing: with a `global` declaration every history is as expected. -/
theorem C68_with_global (us : List Use) :
    returned (session setGlobal moduleVars us) = expected "linuxcnc" us := by
  have gen : ∀ (us : List Use) (g : Env) (d : String), g.lookup "_DEFAULT" = some d →
      returned (session setGlobal g us) = expected d us := by
    intro us
    induction us with
    | nil => intros; rfl
    | cons u us ih =>
      intro g d hg
      cases u with
      | get =>
        have : getDefault.call g [] = .ok g (some d) := by
          have h1 : getDefault.isLocal "_DEFAULT" = false := by decide
          have h4 : getDefault.body = [.ret "_DEFAULT"] := rfl
          unfold Fn.call
          rw [if_pos (show ([] : List String).length = getDefault.params.length from rfl), h4]
          simp only [Fn.exec, h1, Bool.false_eq_true, if_false, hg]
        simp only [session, this, returned, List.map_cons, expected]
        exact congrArg _ (ih g d hg)
      | set n =>
        have : Fn.call setGlobal g [n] = .ok (("_DEFAULT", n) :: g) none := by
          have h1 : Fn.isLocal setGlobal "name" = true := by decide
          have h2 : Fn.isLocal setGlobal "_DEFAULT" = false := by decide
          unfold Fn.call
          rw [if_pos (show [n].length = setGlobal.params.length from rfl)]
          have h4 : setGlobal.body = [.assign "_DEFAULT" "name"] := rfl
          have h5 : setGlobal.params = ["name"] := rfl
          rw [h4, h5]
          simp only [Fn.exec, h1, h2, Bool.false_eq_true, if_true, if_false, List.zip_cons_cons, List.lookup_cons_self]
        simp only [session, this, returned, List.map_cons, expected]
        exact congrArg _ (ih _ n (by rw [List.lookup_cons_self]))
  exact gen us _ _ (by decide)

example : returned (session setDefault moduleVars [.get, .set "reprap", .get]) =
    [some "linuxcnc", none, some "linuxcnc"] := by decide
example : expected "linuxcnc" [.get, .set "reprap", .get] = [some "linuxcnc", none, some "reprap"] := by decide

end Pygcode.Props
