import Verif.Model.Py

/-!
# Reading and printing files

Both scripts open their input with `argparse.FileType('r')` (pygcode-norm:91-94, pygcode-crop:170-173), go
through `args.infile.readlines()` (pygcode-norm:313, pygcode-crop:197) and write their output with `print`
(pygcode-norm:278, pygcode-crop:212-245).  Modelled on decoded text: the encoding is not.
-/

namespace Pygcode

/-- Universal newlines: what reading a file opened in text mode makes of its line endings
(`open(…, newline=None)`, as `argparse.FileType('r')` does; pygcode-norm:92, pygcode-crop:171). -/
def universal : List Char → List Char
  | [] => []
  | '\r' :: '\n' :: s => '\n' :: universal s
  | '\r' :: s => '\n' :: universal s
  | c :: s => c :: universal s

/-- The lines of a text, each with its `\n`; the last one may have none. -/
def splitLines : List Char → List (List Char)
  | [] => []
  | c :: s =>
    if c = '\n' then ['\n'] :: splitLines s
    else
      match splitLines s with
      | [] => [[c]]
      | l :: ls => (c :: l) :: ls

/-- `args.infile.readlines()` (pygcode-norm:313, pygcode-crop:197) of a file with the given text. -/
def fileLines (s : List Char) : List (List Char) := splitLines (universal s)

/-- The text printed by `print` of one line after the other (pygcode-norm:278, pygcode-crop:212-245). -/
def printed (ls : List (List Char)) : List Char := ls.flatMap (· ++ ['\n'])

end Pygcode
