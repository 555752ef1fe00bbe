import Verif.Props.NormExpand
import Verif.Model.Chars

/-!
# C67: cycles with no repetition
-/

namespace Pygcode
open Props Machine

/-- **C67** fails for cycles with `L0`: the machine goes to the hole (once at least), while nothing is
printed for the cycle. -/
theorem C67_zero_refuted :
    ∃ ts : List (List Char), (readLines newNull ts).2 = none ∧
      (expandOpts.loop 20 newNull ts).status = .done ∧
      (readLines newNull (expandOpts.loop 20 newNull ts).out).2 = none ∧
      (expandOpts.loop 20 newNull ts).m.absPos.val .X = 1 ∧
      (readLines newNull (expandOpts.loop 20 newNull ts).out).1.absPos.val .X = 0 :=
  ⟨[chars! "G17 G90", chars! "G0 Z5", chars! "G81 X1 Y2 Z-1 R2 L0"], by decide +kernel⟩

end Pygcode
