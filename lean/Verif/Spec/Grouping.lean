import Verif.Model.GCodes

/-!
# Specification of the grouping of words into gcodes

Written for positions of the word list, without reference to the algorithm of `words2gcodes`:
`wordClass` is the class a word names (characterised in C15), `Cls.params` the letters a class accepts.
-/

namespace Pygcode.Spec
open Pygcode

/-- What a word of a list is used for. -/
inductive Role
  /-- it is a gcode of this class -/
  | gcode (c : Cls)
  /-- it is a parameter of the gcode at this position -/
  | param (i : ℕ)
  /-- it belongs to no gcode -/
  | unused
  deriving DecidableEq

/-- The word at `i` is a gcode which accepts the letter of the word at `k`. -/
def Accepts (ws : List Word) (role : ℕ → Role) (i k : ℕ) : Prop :=
  ∃ c w, role i = .gcode c ∧ ws[k]? = some w ∧ w.letter ∈ c.params

/-- The rule of the grouping: a word is a gcode iff it names a class and no earlier gcode accepts
its letter; otherwise it belongs to the last earlier gcode that accepts its letter, if any. -/
structure IsGrouping (ws : List Word) (role : ℕ → Role) : Prop where
  gcode : ∀ k w c, ws[k]? = some w →
    (role k = .gcode c ↔ wordClass w = some c ∧ ∀ i < k, ¬ Accepts ws role i k)
  param : ∀ k w i, ws[k]? = some w →
    (role k = .param i ↔ i < k ∧ Accepts ws role i k ∧ ∀ j, i < j → j < k → ¬ Accepts ws role j k)
  unused : ∀ k w, ws[k]? = some w →
    (role k = .unused ↔ wordClass w = none ∧ ∀ i < k, ¬ Accepts ws role i k)

/-- The words at the positions below `ws.length` satisfying `P`, in order. -/
def wordsWhere (ws : List Word) (P : ℕ → Bool) : List Word :=
  ((List.range ws.length).filter P).filterMap (fun k => ws[k]?)

/-- Class, word and parameters of the gcodes given by the roles, in order. -/
def gcodesOf (ws : List Word) (role : ℕ → Role) : List (Cls × Word × List Word) :=
  (List.range ws.length).filterMap (fun k =>
    match role k, ws[k]? with
    | .gcode c, some w => some (c, w, wordsWhere ws (fun j => role j == .param k))
    | _, _ => none)

end Pygcode.Spec
