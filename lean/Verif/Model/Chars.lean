/-!
# Texts as lists of characters
-/

namespace Pygcode

/-- `chars! "abc"` is the term `['a', 'b', 'c']`. -/
syntax "chars!" str : term

open Lean in
macro_rules
  | `(chars! $s:str) => do
    let cs := s.getString.toList.toArray.map (fun c => Syntax.mkCharLit c)
    `([$cs,*])

end Pygcode
