# Formal model of pygcode in Lean 4 — design

The first version of this file was written before the proofs; the tables below describe the present
state. Properties are numbered as in `properties.jsonl`; `MANIFEST.json` names the theorems of each.

## What is modelled

All Lean code is under `lean/Verif/`. `Model/` holds the model, `Spec/` small specifications that do
not use the model's helpers, `Lemmas/` auxiliary facts, `Props/` the property theorems with their
examples.

| module | models | source |
|---|---|---|
| `Model/Py.lean` | exception kinds, `\s`, decimal text, `round`, `%g` | CPython semantics |
| `Model/Words.lean` | word table, value regexes, `Word`, `text2words`, `str2word`, `words2dict` | words.py, dialects/linuxcnc.py, dialects/utils.py |
| `Model/Unicode.lean` | `text2words` for texts with characters beyond ASCII | words.py, dialects/linuxcnc.py, CPython semantics |
| `Model/Lines.lean` | comments, `split_line`, the line regex, block text clean-up | comment.py, line.py, block.py |
| `Model/Classes.lean`, `Model/ClassNames.lean` | the gcode class hierarchy, written from the source text by `tools/mkclasses.py` | gcodes.py:140-1357 |
| `Model/ClassDocs.lean`, `Spec/Listings.lean` | descriptions of the classes, lists of names and comment in `__init__.py`, copied by `tools/mkclasses.py` (`Model/Chars.lean` is a notation for texts) | gcodes.py:140-1357, \_\_init\_\_.py |
| `Model/Registry.lean` | `_subclasses`, `_gcode_class_infostr`, `build_maps`, `word_gcode_class` as module state, for any classes | gcodes.py:1362-1456 |
| `Model/GCodes.lean` | `GCode` objects, class lookup, `words2gcodes`, `split_gcodes`, `Block`, `Line`, `text2gcodes` | gcodes.py, block.py, line.py |
| `Model/Machine.lean` | `Position`, `CoordinateSystem`, `State`, `Mode`, `Machine`, `NullMachine`, all `_process` methods | machine.py, gcodes.py |
| `Model/Heap.lean` | gcodes, modes and machines with references to shared word objects | gcodes.py, machine.py |
| `Model/Transform.lean` | `omit_redundant_modes`, `_gcodes_abs2rel`, `simplify_canned_cycle` | utils.py, gcodes.py, transform.py |
| `Model/Arc.lean` | `linearize_arc`, the three methods, planes, quaternions, projections | transform.py, utils.py, gcodes.py, euclid3 |
| `Model/Quat.lean` | `quat2align` with `normalize=True`, quaternion conjugate | utils.py, gcodes.py (comment), euclid3 |
| `Model/Crop.lean` | `pygcode-crop`: range argument, loop, preamble | scripts/pygcode-crop |
| `Model/Norm.lean` | `pygcode-norm`: `write`, the loop, expansion of canned cycles, finalizing lines | scripts/pygcode-norm |
| `Model/NormArgs.lean` | `word_list_type`, default of `--canned_codes` | scripts/pygcode-norm, words.py |
| `Model/NormArc.lean` | `pygcode-norm --arc_linearize` and its options | scripts/pygcode-norm |
| `Model/Float.lean` | binary64 values, `float(text)`, `round`, `%g`, addition, one axis of `move_to` | CPython semantics, machine.py |
| `Model/Messages.lean` | texts of the exceptions of `text2words`, `words2gcodes`, `Block`, `modal_gcode` | words.py, gcodes.py, block.py, machine.py |
| `Model/File.lean` | how the text of a file is split into lines | scripts/pygcode-norm, scripts/pygcode-crop, CPython semantics |
| `Model/ModeText.lean` | `Mode.__init__` for any `default_mode` text, `--machine_mode` | machine.py, scripts/pygcode-norm |
| `Model/Repr.lean` | `Position.words`, `__repr__` of positions, coordinate systems and states | machine.py |
| `Model/Dialect.lean` | `get_default`, `set_default` under Python's scoping rule | dialects/__init__.py |

Exceptions are values; a method that changes the machine returns the machine afterwards together
with the exception, if any, since an exception can leave a partly changed machine behind. Python
objects are immutable values (except in `Model/Heap.lean`). Generators are lists plus an outcome. Loops are structural recursion,
or recursion on fuel together with a theorem that the fuel suffices (`C51` has the case where no fuel
does).

## What is not modelled, and simplifications

* Floats are exact rationals (`ℚ`), or reals in the arc code. `round(v, 3)` and `%g` are modelled
  exactly on rationals (ties half-even), and negative zero prints as `0`. How far binary64 differs from
  this is a separate model (`Model/Float.lean`) with its own theorems: reading, printing and comparing
  values agree (C71), the drift of moves is bounded (C72), and what is printed from doubles (with `-0` for
  some zeros) is read as the exact text is (C95). Overflow and `nan` are not modelled.
* Text is a list of characters. Letters and digits of the main model are the ASCII ones. Python's `\d`, `.upper()` and
  `re.IGNORECASE` also know some other characters, and `\s` matches U+001C to U+001F, which `float()` and
  `int()` do not skip in ASCII texts; `Model/Unicode.lean` is a model of `text2words` with all of this, and C100 says when the
  two agree. Blanks (`\s`) are those of Unicode in both.
* Object identity and aliasing (two references to one mutable object) are not part of the main model.
  Word objects shared by gcodes and modes have a model of their own (`Model/Heap.lean`), and `C81` says
  when the main model agrees with it; `C41` is about copies of machines.
* Dicts keep insertion order (Python 3.7 and later).
* `euclid3` is not in /repo. Vectors, planes, lines and quaternions are modelled from its documented
  behaviour. In the ZX and YZ planes the quaternion products are exact; with binary64 they leave
  residues of the order 1e-16, so sign tests at exact zero may differ there.
* `atan2` has no signed zeros.
* Command-line parsing (`argparse`) is not modelled; the scripts are functions of the option values and
  of the list of lines. How a file's text is split into lines is in `Model/File.lean` (C102); its
  encoding is not modelled.
* In `pygcode-norm --arc_linearize` the coordinates computed for the vertices are an unknown function
  (`Floats`) within some `ε` of the exact vertices; all printing and reading of them is exact.
* The range argument of `pygcode-crop` has no line breaks (its regular expression is compiled with `re.MULTILINE`).
* `__repr__` of comments and the colouring of debug output have
  no model.
* `dialects/reprap.py` is empty; the decorators of `dialects/mapping.py` and its copy `dialect.py` have
  bodies that return `None`.

## Plan per property

| property | modelled by | proof |
|---|---|---|
| C01 | `text2words` and an inductive grammar `Lexes` (longest match) | induction on text length, both directions |
| C02, C03 | `Word.str`, `text2words` | digit-string arithmetic; induction on the word list |
| C04, C05 | `%g` printer on `ℚ` | `Int.log` bounds; exponent form never reads back as one word |
| C06 | `text2words` | simulation between texts equal up to case |
| C07–C09 | `Word` comparisons, `words2dict` | order laws, list induction |
| C10–C14, C70 | `split_line`, `Line`, block text clean-up | list induction; witnesses for C14, and `C14_percent_read`, `C14_plain_read`, `C14_part`: which part of any line is read |
| C15 | class table and predicates on all of `ℚ` | check of the whole finite table, lifted to all words |
| C16–C18 | `words2gcodes` | equivalence of the nested mutation loops with a declarative assignment |
| C19–C21 | `Block`, printing of gcodes | from C17; table fact: no class absorbs the word of a class sorting later |
| C22–C25 | `GCode` operations, `split_gcodes` | list induction |
| C26–C29 | `Position` | case analysis over axes, field arithmetic |
| C30–C46 | `Machine` | invariants by induction over call histories; commutation for C38 |
| C47, C48 | `omit_redundant_modes`, `_gcodes_abs2rel` | simulation by induction over the stream |
| C49–C53 | `simplify_canned_cycle` | loop invariants; fuel independence; divergence for Q0 |
| C54–C62 | `linearize_arc` over `ℝ` | real analysis (trigonometry, convexity of chords) |
| C63–C65 | `pygcode-crop` | list lemmas; machine theorems; witnesses |
| C66, C67, C69, C73 | `pygcode-norm` | simulation between reading the input and reading the output; for C73 up to a distance |
| C74 | option values | case analysis |
| C75 | length of a block | case analysis |
| C76 | gcodes from classes and text | table facts, fold over the parameters, C03 and C17 |
| C77 | `--rm_gcodes` | the printed line executes the kept gcodes (as in C66), induction on the lines |
| C78 | `--rm_invalid_modal` | a strict copy of the machine reads the cleaned blocks; induction on the lines |
| C79 | option word lists | splitting is the inverse of joining; longest match with blanks behind; table check |
| C80 | no cycle left | every printed line is read back as the gcodes written (as in C67, C77) |
| C81 | shared words | a store of word cells; simulation of the model with values, with an invariant on who refers to what |
| C82 | form of printed lines | written lines read back (as in C66); cases over everything that is printed; for expansions from the form of lines that are printed again (C109) |
| C83 | ArcFollow, ArcFollowRel | places on the lines chosen by direction from the centre; combination of directions; lines lie in the cone of their ends |
| C84 | Failures | classification of all outcomes; the execution is split at the exec order of the canned cycles (early gcodes cannot fail and set the plane and return modes) |
| C85 | Shift | simulation between the two machines, step by step |
| C86 | Layout | induction over the layout, with the matcher of each letter followed through the table |
| C87 | Lemmas/Deal, LineNumbers | grouping as dealing words from left to right; idle gcodes filtered out of the sorted list |
| C88 | NormOutcome | lines follow the execution step by step; cycles by C53; more passes change nothing once an expansion ended |
| C89 | --rm_invalid_modal is removing the words first | bisimulation of the script's runs; deleting left-over words from a dealt line |
| C90 | NormShown | the script, run for all option sets at once, factors through a list of pieces (`Uniform`), by induction over expansions and lines |
| C91 | Published | tables as functions of letter and number; classes by evaluation of the class table, words with a test (N, O, F, S, T, G38.x, …) by cases |
| C92 | Unheeded | the class table by kernel evaluation lifted by claims_check; dealing of words with the silent ones filtered out (as C87); frame of machine paths for the offsets |
| C93 | CropResume | machines equal up to range and motion mode (NearTo) are kept so by a line and its printed form; the preamble (C64) starts them off |
| C94 | scaled and mirrored programs | relation between two machines, kept by every step; dealing of words commutes with the replacement |
| C95 | `Outputs` relates a word to the texts printed from doubles (`Model/Float.lean`) | C71 per word; induction over the words in the grammar of C01; splitting of printed lines from C13 |
| C96 | `crop` on the ranges between cuts; `CutAt` describes the pieces | C63 for each range; C93 step for a machine that comes from the piece before, induction over the pieces |
| C97 | `NormOpts.loop` with `full`, then `crop` | printed lines have no left-over words (C66 `loop_fixed`); then C93 for the printed file, whose motion condition holds for every line |
| C98 | `Arc.iterVertices`, `linearizeArc`; lengths from coordinates | corners in polar coordinates (C83); bounds on each chord by x cos x <= sin x <= x; sum over the fractions |
| C99 | Displaced and reversed arcs | `C99_displaced`: all values of the Arc record other than the positions are unchanged by a displacement, and the positions are displaced; exceptions included. `C99_reversed`: the radius, centre, number of wedges and corner radius agree, the sweep is negated, corner `N - i` of one arc is corner `i` of the other; the centre is the same because the nearest place with the mean radius is unique (`mean_unique`, Props/ArcMean.lean) unless the named centre is on the line through both ends outside them, where `C99_outside` shows the two centres to differ (Props/ArcSymmetry.lean). |
| C100 | `Model/Unicode.lean`, with the digits of Unicode as a parameter | every matcher commutes with replacing digits and letters by their ASCII forms; induction on the words read |
| C101 | ArcOutcome | case analysis of the angle in each plane; the run is followed line by line as for C88 |
| C102 | `C102_read`, `C102_norm`, `C102_crop` | invariant over the whole script: texts of words, gcodes, comments, macros and the machine's mode have no line ending; reading splits at `\n` only |
| C103 | `C103_mode`, `C103_raises`, `C103_start`, `C103_default`, `C103_printed`, `C103_norm`, `C103_refuted` | the matches of the regular expression are the non-blank lines, up to lines without gcodes; the sort by execution order is stable and constant on a group |
| C104 | `C104_machine`, `C104_norm`, `C104_streams`, `C104_pieces` | how a move ends is a function of the axes, the distance mode and the coordinates given; simulation between the two machines; C103 for the second piece |
| C105 | `C105_scaled`, `C105_similar`, `C105_outside` | algebra on the model for the change of scale; for similarities, corners of the polygon in complex coordinates, as in C99 |
| C106 | `C106_product`, `C106_turn`, `C106_align`, `C106_opposite`, `C106_system`, `C106_planes`, `C106_projection`, `C106_refuted` | rotation formula for quaternions of unit axes; what is perpendicular to both vectors is parallel to the axis; Pythagoras for the projection |
| C107 | `C107_each`, `C107_level`, `C107_below`, `C107_names`, `C107_table`, `C107_comment`, `C107_exported`, `C107_documented`, `C107_found`, `C107_user_refuted` | place in the order of definition bounds the recursion; sublists for the order; the tables are compared as a whole by the kernel |
| C108 | `C108_first`, `C108_rebuild`, `C108_clash`, `C108_inherited`, `C108_hidden`, `C108_builtin`, `C108_own`, `C108_others` | induction over the events with the state of the registry; a failing build leaves the maps marked as not created |
| C109 | `C109_again`, `C109_indent` | each printed line is read back as gcodes that are written as the same line but for leading blanks; no listed gcode is left (as in C80), so every line of the second run is an ordinary one |
| C110 | `C110_none`, `C110_again` | the lines printed for an arc are plain linear moves with rounded coordinates; otherwise as C80 and C109 |
| C111 | `C111_lex`, `C111_lex_raised`, `C111_twice`, `C111_twice_raised`, `C111_conflict`, `C111_conflict_raised`, `C111_conflict_group`, `C111_modal`, `C111_modal_raised`, `C111_block`, `C111_conflict_refuted`, `C111_modal_refuted` | a second pass over the loops of the model that returns texts, against relations on texts, roles and positions; induction over the loops |
| C112 | `C112_refused`, `C112_failed`, `C112_place`, `C112_refuted` | induction over the gcodes executed; a failing cycle is located with C45 and the tables of C84 |
| C113 | `C113_step`, `C113_all`, `C113_path` | each line in the frame of its middle (or its end on the arc); concavity of sine and cosine, tangent of a quarter wedge (Lemmas/ArcStep) |
| C114 | `C114_printed` | C113 for the exact lines; positions read back are within eps + 0.0005 of the exact vertices (as in C73) |
| C115 | `C115_words`, `C115_read`, `C115_same`, `C115_shown`, `C115_eq`, `C115_state` | C03 (joined words are read back) for the rounded coordinates |
| C116 | `C116_program`, `C116_absolute`, `C116_unique` | C114 for a reader that is off by some distance (`printed_step`); how far off it is before the arc from the simulation of C73 |
| C117 | `C117_program` | C50 and C52 at the place where the simulation of C67 reaches the cycle, and each printed move read back on its own (`moves_read_motion`) |
| C118 | `C118_range`, `C118_chip_refuted` | simulation of C67 with the levels visited so far as an additional invariant (`Wider`); the levels are stated from the words of the cycle (`cycleLevels`) |
| C119 | `C119_arc`, `C119_ends`, `C119_within`, `C119_bulge_refuted` | the range has all places in it where the reader ever is, hence the segments between them; by C116 the helix keeps near them; conversely the reader visits, one by one, places near those of a machine that reads the input with its cycles expanded, and near the helices |
| C120 | `C120_arc`, `C120_crop`, `C120_safe`, `C120_bulge_refuted`, `C120_safe_refuted` | along the normal a helix is between its ends, which are recorded; the range never shrinks |
| C121 | `C121_mean`, `C121_centre`, `C121_lines` | coordinates along and across the span; the part along the span is the least possible distance, the part across is no longer |
| C68 | default dialect | induction over calls |
| C71, C72 | binary64 | error bounds of rounding to nearest; induction over the moves |

A property the code violates keeps its full statement in `properties.jsonl`. The development then
contains a refutation (`…_refuted`, a concrete witness or a whole class of them) and a `…_partial`
theorem with what does hold. The manifest marks it `partial` and says which part fails.

## Where the code disagrees with the expected behaviour

Each item is a theorem or example of the development.

* C05: values from 999999.4995 on, and codes below 0.0001, print with an exponent and do not read back.
* C14: `%` or `;` inside a bracket comment, or both comment kinds on one line, change the meaning.
* C27, C29: assigning `unit` bypasses the converting setter; `+`, `-`, `min` and `max` mix units.
* C41: copying a machine loses the coordinate system offsets.
* C43: G20/G21 change only the recorded mode, no coordinate is converted.
* C49: incremental G99 with several holes, L0, and U, V, W words end elsewhere after expansion.
* C51: G83 and G73 with Q0 never end. C53: expanding G82 raises `NameError`.
* C52: a start below the bottom of the hole in G98 mode plunges.
* C57, C58: arc angles are wrong in the ZX and YZ planes. C59: full circles are not linearized.
* C64: the preamble of `pygcode-crop` is wrong in G91 mode and loses the motion mode.
* C66: `--singles` without `--full` drops left-over words; `--full` may print a conflicting line; words
  in front of the gcode accepting them are read differently.
* C67: G99 is not handed to the expansion; a cycle with L0 moves the machine but prints nothing.
* C68: `set_default` assigns a local variable.
* C74: `--arc_lin_method I` raises `KeyError`; a line break at the end is accepted.
* C78: with `--rm_invalid_modal` a left-over line giving a letter twice raises `GCodeParameterError`.
* C69: `--rm_gcodes` also removes the finalizing lines, and they follow M2/M30.
* C81: assigning a modal parameter of a canned cycle changes the mode of a machine that executed it.
* C82: `pygcode-norm` loses a macro when `--singles` splits its line and when a cycle of its line is expanded.
* C83: violated in the YZ plane (see C58).
* C86: blanks inside a number end it and the rest is skipped: `G1 X1 2 Y3` moves to X1; `T 1` is not `T1`.
* C88: the default list of `--canned_codes` has G82, which is never expanded: the script raises an error on every program with it (C88_dwell, C88_refuted).
* C91: words of the tables that no class reads (G84, G86–G88, M70–M73, M100–M199; the class for M101–M199 has its test commented out, gcodes.py:1351-1354); G80 is in no modal group (on purpose); M7 and M8 exclude each other although the table lets both be on.
* C92: G92, G53 and G28/G30 have no effect of their own: 'G92 X1' makes the machine move to X1 (in the active motion mode), 'G53 G0 X1' goes to X1 in work coordinates, 'G28' does not move (gcodes.py:1300-1345: classes without _process).
* C93: pygcode-crop does not restore the motion mode: when the first printed line has left-over words for an arc (`X5 I1` after `G2`), the printed program is refused (C93_motion_refuted).
* C100: `K5` with the Kelvin sign raises KeyError instead of GCodeWordStrError (C100_key)
* C101: full circles raise ZeroDivisionError with the default method, and so do arcs in the ZX and YZ planes with both ends on the same side of the centre (C101_refuted)
* C103: with `--machine_mode G55` the mode has coordinate system 2 and the state system 1 until the first gcode is processed (`C103_refuted`); machine.py:375-390 against 401-407.
* C106: `quat2align` of opposite vectors is the zero quaternion, not a half turn, and `quat2coord_system` inherits this (`C106_opposite`, `C106_refuted`); utils.py:27-30 against its docstring.
* C107: GCodeUserDefined is described as "M101-M199", but has no `word_key` and no `word_matches`: those words are unsupported (`C107_user_refuted`); gcodes.py:1346-1356.
* C108: "To create user g-codes, inherit from this class" (gcodes.py:1349) holds only for classes defined before the first lookup; later ones are silently not found (`C108_first`), and a class deriving from a built-in one without a new `word_key` makes every lookup raise RuntimeError (`C108_inherited`).
* C111: the message for a repeated gcode without modal group lists all gcodes without one, since `None == None` (`C111_conflict_refuted`; block.py:64-69), and the message about left-over words keeps only the last word of a letter, since these go through a dict keyed by letter (`C111_modal_refuted`; machine.py:424).
* C112: a line whose canned cycle raises an exception has been executed in part, and the cycle stays as motion mode (`C112_refuted`; machine.py:499-500).
* C118: G73 with Q below 0.5 is expanded to a rapid move above the level R and, with R at the current height, above every height of the input (`C118_chip_refuted`); transform.py:469-471.
* C119: `abs_range_max` is described as the corners of a bounding box of the motion range, but of an arc only the end points are recorded (`C119_bulge_refuted`); machine.py:388-390, 544-546, gcodes.py:403-404.
* C120: pygcode-crop moves up to "maximum Z the machine has experienced thus far", pygcode-norm to a "safe height"; both only know the ends of arcs, so an arc in the plane ZX or YZ may have been higher (`C120_bulge_refuted`, `C120_safe_refuted`); scripts/pygcode-crop, scripts/pygcode-norm:368-373.

## Testing the theorems against wrong programs

`seeded/LOG.jsonl` records one edit of the model per line, the claim it breaks and the theorems that
stopped proving. Failing theorems are replaced by a placeholder in a scratch copy and the build is
repeated, so that all theorems depending on the edit are found. An edit that broke no theorem led to
a tighter theorem, named in the field `tightened`.

## Testing the model against the repository's tests

The model is written from reading the source, and the code is not run here. What the authors expect of it is
recorded in `/repo/tests`: `Props/RepoTests.lean` evaluates the assertions of the unit tests (words, lines, gcodes,
positions, machine, utilities) on the model. `tools/corpus.py` runs the model over the 42 gcode files of
`tests/test-files`: all files of `linuxcnc/` are processed without exception, as tests/test_parsing.py
asserts, and all files of `linuxcnc/unsupported/` end in `MachineInvalidState`, as the README there says.

## Trusted base

* The Lean 4.33.0 kernel, and Mathlib's definitions used in the statements (`ℚ`, `ℝ`, `List`, `Finset`,
  trigonometric functions).
* The reading of the Python source recorded in the comments of the model, which cite file and lines.
* The specifications in `Spec/` and the definitions made beside the theorems in `Props/`.
* The axioms below, as reported by `#print axioms` for every theorem named in the manifest (written by
  `tools/axioms.py`). There are no others: no `native_decide`, no compiled code.

<!-- AXIOMS -->
* no axioms: `C68_refuted`.
* `propext`: `C74_break_refuted`, `C74_capital_refuted`, `C74_meaning`.
* `Quot.sound`, `propext`: `C09_block_letter`, `C12_macro`, `C12_newline`, `C12_plain`, `C62_error`, `C62_params`, `C70_chunks`, `C70_idempotent`.
* `propext`, `Classical.choice`, `Quot.sound`: all the other 445 theorems.
<!-- /AXIOMS -->
