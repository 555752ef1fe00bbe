import Verif.Model.Words

/-!
# Splitting lines: `src/pygcode/comment.py`, the regex of `src/pygcode/line.py`, and the block text
clean-up of `src/pygcode/block.py`
-/

namespace Pygcode

/-- Comment objects (comment.py:17-32). -/
inductive Comment
  | semicolon (text : List Char)
  | brackets (text : List Char)
  deriving DecidableEq, Repr

/-- The `text` attribute. -/
def Comment.text : Comment → List Char
  | .semicolon t => t
  | .brackets t => t

/-- `__str__` of the comment classes (comment.py:22-23, 31-32). -/
def Comment.str : Comment → List Char
  | .semicolon t => [';', ' '] ++ t
  | .brackets t => ['('] ++ t ++ [')']

/-- Match `\s*;\s*(?P<text>.*)$` (comment.py:20) at the start of `s`; returns the text group.
`\s*` may be taken greedily: it must reach the `;`, resp. more blanks left to `.*` would only add
newlines; `.*$` must reach the end of the text, so it must not contain a newline. -/
def semiAt (s : List Char) : Option (List Char) :=
  match s.dropWhile isSpace with
  | ';' :: r =>
    let t := r.dropWhile isSpace
    if '\n' ∈ t then none else some t
  | _ => none

/-- First match of the semicolon regex: text before it, and its `text` group.  A match reaches the
end of the text, so there is at most one. -/
def semiFind (s : List Char) : Option (List Char × List Char) :=
  match semiAt s with
  | some t => some ([], t)
  | none =>
    match s with
    | [] => none
    | c :: cs => (semiFind cs).map (fun p => (c :: p.1, p.2))

/-- All matches of `\((?P<text>[^\)]*)\)` (comment.py:29): the text without them, and their `text`
groups in order.  The state is `none` outside brackets, or the (reversed) text read since an open
bracket; an open bracket that is never closed is ordinary text. -/
def bracketScan : Option (List Char) → List Char → List Char × List (List Char)
  | none, [] => ([], [])
  | none, c :: r =>
    if c = '(' then bracketScan (some []) r
    else ((c :: (bracketScan none r).1), (bracketScan none r).2)
  | some acc, [] => ('(' :: acc.reverse, [])
  | some acc, c :: r =>
    if c = ')' then ((bracketScan none r).1, acc.reverse :: (bracketScan none r).2)
    else bracketScan (some (c :: acc)) r

/-- `split_line` (comment.py:38-67).  The semicolon class is tried first (`ORDER`), brackets only
if it has no match. -/
def splitLine (text : List Char) : List Char × Option Comment :=
  let s := rstripNewlines text
  match semiFind s with
  | some (b, t) => (b, some (.semicolon t))
  | none =>
    let r := bracketScan none s
    if r.2 = [] then (s, none) else (r.1, some (.brackets (joinWith ['.', ' '] r.2)))

/-- `Line.line_regex.search(text)` (line.py:8, 20): `^(.*?)?(%.*%?)?\s*$`.
The lazy first group is the shortest prefix without newline after which the rest is either blank,
or a `%` whose line is followed by blanks only; the macro group is that line from the `%` on
(greedy, so it includes trailing blanks of the line). `none` = no match. -/
def lineSplit (s : List Char) : Option (List Char × Option (List Char)) :=
  match s with
  | [] => some ([], none)
  | c :: cs =>
    if c = '%' ∧ (cs.dropWhile (· != '\n')).all isSpace then
      some ([], some ('%' :: cs.takeWhile (· != '\n')))
    else if (c :: cs).all isSpace then some ([], none)
    else if c = '\n' then none
    else (lineSplit cs).map (fun p => (c :: p.1, p.2))

/-- `re.sub(r'(^\s+|\s+$)', '', text)` (block.py:40). -/
def strip (s : List Char) : List Char :=
  ((s.dropWhile isSpace).reverse.dropWhile isSpace).reverse

/-- `re.sub(r'\s+', ' ', text)` (block.py:41). -/
def collapse : List Char → List Char
  | [] => []
  | c :: cs =>
    if isSpace c then
      match cs with
      | d :: _ => if isSpace d then collapse cs else ' ' :: collapse cs
      | [] => [' ']
    else c :: collapse cs

/-- Clean-up of block text (block.py:38-42). -/
def cleanText (s : List Char) : List Char := collapse (strip s)

end Pygcode
