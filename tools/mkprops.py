"""Writes /verif/properties.jsonl (kept as a script so that the text stays readable)."""
import json
P = []
def p(title, statement, quantifier, why, anchors):
    P.append(dict(id="C%02d" % (len(P)+1), title=title, statement=statement,
                  quantifier=quantifier, why_tests_cant=why, anchors=anchors))

W="src/pygcode/words.py"; L="src/pygcode/dialects/linuxcnc.py"; CM="src/pygcode/comment.py"
LN="src/pygcode/line.py"; B="src/pygcode/block.py"; G="src/pygcode/gcodes.py"; M="src/pygcode/machine.py"
T="src/pygcode/transform.py"; U="src/pygcode/utils.py"; CR="scripts/pygcode-crop"; NO="scripts/pygcode-norm"
D="src/pygcode/dialects/__init__.py"

# ---- words ----
p("text2words accepts exactly its grammar",
  "text2words(text) terminates for every text; it yields the words w1..wn iff the text is a sequence of (skipped characters that are not letters, a letter, the longest value text allowed for that letter) followed by blanks only, and it raises GCodeWordStrError in every other case; no other exception escapes.",
  "every (ASCII) text of any length", "a scanner loop over arbitrary text: tests sample a few lines, termination and the exact accepted language need every string",
  [W+":text2words", L+":WORD_MAP", L+":REGEX_FLOAT", L+":REGEX_CODE", L+":REGEX_POSITIVEINT"])
p("Printed words parse back to the same word",
  "For every word whose numeric value has at most 3 decimals and at most 6 significant digits (codes G/M: non-negative, at most one decimal; L/N: integers below 10^6; T/O: their own text), text2words(str(word)) yields exactly one word and it equals the original.",
  "every letter and every value in the printable range (unbounded set of rationals n/10^d)", "the value space is infinite and %g formatting changes shape with magnitude and trailing zeros",
  [W+":Word.__str__", W+":Word.value_str", L+":CLEAN_FLOAT", L+":_clean_codestr", L+":CLEAN_INT", W+":text2words"])
p("A printed sequence of words parses back to that sequence, with or without separating blanks",
  "For any list of printable words (no program-name word O except last; no T value with blanks), concatenating their str() with any whitespace between them, including none, and calling text2words gives the same list. In particular removing all whitespace (pygcode-norm --rm_whitespace) does not change the words.",
  "every list length, every word, every choice of separators", "token-boundary errors only appear for particular neighbouring pairs out of infinitely many lists",
  [W+":text2words", B+":Block.__str__", NO+":write"])
p("Printing error of a word value is bounded",
  "For every value v with |v| < 999999.4995 (from there on an exponent is printed), the number printed by str() for a float word differs from v by at most 0.0005 + 0.5*10^(e-5) where 10^e <= |v| < 10^(e+1) (0.0005 for rounding to 3 decimals, the rest for 6 significant digits).",
  "every rational value below the exponent threshold", "a bound over a continuum of values", [L+":CLEAN_FLOAT", W+":Word.value_str"])
p("Every float word can be written to a file and read back",
  "str(word) for a float word is always text that text2words reads back as a single word with that letter (user expectation). The code violates this for |v| >= 10^6, where %g switches to exponent notation and the 'e' is read as an E word.",
  "every letter with a float value, every value", "needs both the general argument below the threshold and the failure for every value above it",
  [L+":CLEAN_FLOAT", W+":text2words"])
p("Case of letters does not matter",
  "Changing the case of any letters of a text (outside a program name) does not change the words text2words yields, nor whether it raises.",
  "every text and every choice of letters to change", "all strings times all case patterns", [W+":text2words", W+":Word.__init__"])
p("Word comparison is a total order consistent with equality",
  "Over words, < is a strict total order (irreflexive, transitive, total up to ==), <= / > / >= agree with it, == is an equivalence, and the ordering compares letters first then values; equal words are interchangeable as dict keys.",
  "all triples of words", "algebraic laws over an infinite domain", [W+":Word.__lt__", W+":Word.__eq__", W+":Word.__hash__"])
p("Comparing a word with its text form agrees with parsing",
  "word == 'text' is true iff text2words(text) yields exactly one word equal to it; text holding several words raises GCodeWordStrError; str2word of blank text is None.",
  "every word and every text", "every text", [W+":Word.__eq__", W+":str2word"])
p("words2dict and Block letter access",
  "words2dict(words) maps each letter present (and allowed) to the value of the LAST word with that letter, nothing else; block.<letter> returns the FIRST word of the block with that letter, or None if there is none.",
  "every word list and letter", "every list", [W+":words2dict", B+":Block.__getattr__"])

# ---- comments & lines ----
p("A semicolon comment never reaches the block",
  "For text containing ';' split_line returns as block exactly the text before the first ';' with trailing blanks removed, and as comment everything after it without leading blanks; so two lines differing only after the first ';' have the same block.",
  "every newline-free text", "every string", [CM+":split_line", CM+":CommentSemicolon"])
p("Bracket comments are removed exactly",
  "For text without ';', split_line returns the text with every '(...)' span (from a '(' to the nearest following ')') removed and everything else kept in order, and a comment which joins the spans' contents with '. ' in order; with no complete span there is no comment and the block is the text unchanged.",
  "every text without ';'", "every string and any number of comments", [CM+":split_line", CM+":CommentBrackets"])
p("Line splits text into block, comment and macro without losing characters",
  "For any single-line text, block_and_comment followed by macro is the text up to trailing blanks; the macro starts at the first '%' and block_and_comment has no '%'; text with an inner newline is refused with an exception.",
  "every text", "every string", [LN+":Line.__init__", LN+":Line.line_regex"])
p("Printing a Line is stable",
  "If Line(text) succeeds, its words are printable and not program names, its block's str() is faithful (see the block round-trip property) and it does not have a non-empty semicolon comment before a macro, then Line(str(line)) succeeds and has the same gcodes, comment text and macro; printing again gives the same text. (Each exception is shown to be real: e.g. a semicolon comment before a macro grows by a blank in every round.)",
  "every accepted line", "composition of scanner, comment splitter and printer over all texts", [LN+":Line.__str__", LN+":Line.__init__"])
p("Comment content never changes the meaning of a line",
  "What is written inside a comment has no effect on the block (user expectation). The code violates this: a '%' inside any comment starts a macro, and a ';' inside a bracket comment takes precedence over the bracket. What it does instead: of a line (or of its part before the first '%') everything before the first ';' is read, the contents of brackets included; brackets are left out only if there is no ';'.",
  "every comment content", "needs every content", [CM+":split_line", LN+":Line.line_regex"])

# ---- grouping ----
p("A word identifies at most one gcode class",
  "For every word, at most one gcode class claims it (by word_key or word_matches), so the result of the lookup does not depend on the order in which classes are registered; building the maps never raises; every class with a word_key is found by that word.",
  "every word value (not only the ones in the table)", "word_matches are predicates over all numeric values; the unit test only checks table keys against predicates",
  [G+":build_maps", G+":word_gcode_class"])
p("Grouping words into gcodes loses and duplicates nothing",
  "If words2gcodes(words) returns (gcodes, unused), then the gcodes' own words, all their parameter words, and the unused words together are exactly the given words (as a multiset), gcodes are in the order of their words in the input, and unused words keep input order.",
  "every word list", "every list of every length", [G+":words2gcodes"])
p("Which gcode a parameter belongs to",
  "words2gcodes makes a word a gcode iff it names a class and no earlier gcode of the list accepts its letter as a parameter; any other word becomes a parameter of the LAST earlier gcode that accepts its letter, and is unused iff no earlier gcode accepts it.",
  "every word list", "assignment depends on all preceding words", [G+":words2gcodes"])
p("Grouping fails exactly on a repeated parameter",
  "words2gcodes raises (GCodeParameterError) iff two words with the same letter are assigned to the same gcode; otherwise it succeeds, and every gcode's parameters have distinct letters, all allowed for its class.",
  "every word list", "every list", [G+":words2gcodes", G+":GCode.add_parameter"])
p("Block verification accepts exactly the conflict-free blocks",
  "Block(text) with verification raises AssertionError iff two of its gcodes have the same word or the same modal group; otherwise it is built.",
  "every word list", "all pairs in all blocks", [B+":Block._assert_gcodes", B+":Block.__init__"])
p("Printed blocks keep their meaning",
  "Grouping the words of str(block) gives the same gcodes and modal parameters as the block whenever no modal (unassigned) parameter has a letter accepted by some gcode of the block. (For blocks like 'X1 G1 Y2' the condition fails and printing does change the meaning; that is shown by a concrete witness.)",
  "every word list", "needs every combination of gcodes and parameters", [B+":Block.__str__", G+":GCode.__str__", G+":words2gcodes"])
p("Gcodes in execution order print to text with the same meaning",
  "For any gcodes produced by words2gcodes, printing them on one line in execution order and regrouping gives those gcodes in that order with the same parameters and no unused words (pygcode-norm --full).",
  "every list of gcodes", "relies on no class in the table absorbing the word of a class that sorts after it", [NO+":write", M+":Machine.block_modal_gcodes", G+":words2gcodes"])
p("Gcode parameters behave like a typed dictionary",
  "After g.K = v: g.K reads back v (converted to the letter's type), other parameters are unchanged, and it is an error for letters the class does not accept through add_parameter; add_parameter refuses a letter given twice; reading an accepted but absent parameter gives None; get_param_dict returns exactly the parameters whose letter is white-listed.",
  "every gcode, letter, value and sequence of assignments", "arbitrary sequences of assignments", [G+":GCode.add_parameter", G+":GCode.__getattr__", G+":GCode.__setattr__", G+":GCode.get_param_dict"])
p("modal_copy keeps exactly the modal parameters",
  "g.modal_copy() never raises, has g's class and word, and its parameters are exactly g's parameters whose letter is in the class's modal_param_letters; modal_copy of a modal_copy is equal to it.",
  "every gcode", "every class and parameter set", [G+":GCode.modal_copy"])
p("Gcode equality ignores parameter order",
  "Two gcodes are equal iff their words are equal and they have the same parameter for every letter; this is an equivalence relation, invariant under permuting the parameters given to the constructor.",
  "all gcodes and permutations", "all permutations", [G+":GCode.__eq__"])
p("split_gcodes splits around the first gcode of a class",
  "split_gcodes(list, cls) returns (a, b, c) with a+b+c equal to the execution-order stable sort of list (or list itself if sort_list is false), b empty or one instance of cls, no instance of cls in a, and if b is empty so is c.",
  "every gcode list and class", "every list", [G+":split_gcodes"])

# ---- positions ----
p("Position arithmetic laws",
  "For positions with the same axes, (a + b) - b == a, a + b == b + a axis by axis, (a - b) + b == a and (p * s) / s == p for s != 0; a + b raises MachineInvalidAxis iff the axes differ, a - b iff b has an axis a lacks; operands are not altered.",
  "all positions, axes sets and scalars", "algebraic laws over all values", [M+":Position.__add__", M+":Position.__sub__", M+":Position.__mul__", M+":Position.__div__"])
p("Unit conversion of positions is lossless and equality is unit-independent",
  "Setting unit to another unit multiplies every coordinate by 25.4 or 1/25.4, setting it back restores the position, setting the same unit changes nothing; == compares positions in different units by length, is symmetric and transitive, and + and - add and subtract lengths (user expectation). The conversion itself is lossless, but Position.__setattr__ (machine.py:74-80) bypasses the property setter, so assigning unit never converts and == compares, + adds and - subtracts raw numbers whatever the units: proved and refuted by witnesses.",
  "all positions and units (exact arithmetic)", "all values", [M+":Position.unit", M+":Position.__eq__"])
p("Position rejects unknown axes",
  "Assigning an axis the position does not have raises MachineInvalidAxis and changes nothing; assigning an existing axis changes exactly that coordinate; update() with several coordinates sets each of them.",
  "all positions, axes and values", "all axis subsets", [M+":Position.__setattr__", M+":Position.update", M+":Position.__init__"])
p("Combining bounding corners takes the axis-wise extreme",
  "Position.min(a, b) / max(a, b) has, for each axis of a, the smaller / larger of the two coordinates, in a's unit, whatever the unit of b (user expectation). Holds for equal units; with different units the raw numbers are compared (witness), because the unit conversion is never run.",
  "all positions", "all values", [M+":Position._cmp", M+":Position.min", M+":Position.max"])

# ---- machine ----
p("Reading back an assigned machine position",
  "After m.pos = p, reading m.pos gives p for every p with the machine's axes, every coordinate-system offset and every temporary offset, and the absolute position is p plus both offsets.",
  "every machine state and position", "all offsets and coordinate systems", [M+":Machine.pos", M+":Machine.abs2work", M+":Machine.work2abs"])
p("Absolute moves go exactly to the given coordinates",
  "In a mode that is not G91, processing a G0/G1/G2/G3/... motion leaves every given axis of m.pos at the given value and every other axis unchanged, whatever the offsets; repeating the same move changes nothing.",
  "every machine state, motion gcode and parameters", "every state and parameter combination", [M+":Machine.move_to", G+":GCodeMotion._process"])
p("Incremental moves add up",
  "In G91 mode, after any sequence of motion gcodes each axis of m.pos equals its initial value plus the sum of the values given for that axis; zero-length moves change nothing and the order of the moves does not matter for the end point.",
  "every finite sequence of moves and initial state", "unbounded histories", [M+":Machine.move_to", G+":GCodeMotion._process"])
p("The recorded range is exactly the bounding box of everything visited",
  "After any history of processed gcodes (even one that ended in an exception), for each machine axis abs_range_min/max are the minimum/maximum over the absolute positions the machine has been at since creation, so abs_pos always lies within them and the box never shrinks.",
  "every history of gcodes from a new machine", "unbounded histories", [M+":Machine._update_abs_range", M+":Machine.pos", M+":Machine.__init__"])
p("Only motion gcodes move the machine",
  "Processing any gcode that is not a motion or canned-cycle gcode (units, plane, coordinate system, feed, spindle, tool, dwell, stop, G10, G28, G92 ...) leaves the absolute position and the recorded range unchanged.",
  "every machine state and gcode", "every state and class", [G+":GCode._process", M+":Machine.process_gcodes"])
p("Mode slots are always consistent",
  "After any history, each modal group's slot is empty or holds a gcode of that group, carrying only parameters its class declares modal.",
  "every history", "unbounded histories", [M+":Mode.set_mode", M+":Mode.__setattr__", G+":GCode.modal_copy"])
p("Setting modes: last writer in execution order wins, other groups untouched",
  "Mode.set_mode(gcodes) leaves in each modal group the modal copy of the last given gcode of that group in execution order, and leaves groups not mentioned as they were. Assigning a wrong-group gcode to a mode attribute raises MachineInvalidState and changes nothing.",
  "every mode and gcode list", "every list", [M+":Mode.set_mode", M+":Mode.__setattr__"])
p("A modal line equals the explicit line",
  "With motion mode G (a gcode without retained parameters) active, processing a block with only parameters has the same effect and outcome as processing the same parameters preceded by G's word; with a retained-parameter mode (canned cycle) it equals the explicit word with retained parameters overridden by the given ones. (For parameters without repeated letters; a repeated letter makes the explicit line fail while the modal line takes the last one.)",
  "every machine state and parameter list", "every state", [M+":Machine.modal_gcode", M+":Machine.process_gcodes"])
p("Order of gcodes within a valid block does not matter",
  "Processing the gcodes of a conflict-free block in any written order leaves the machine in the same state.",
  "every machine state, every conflict-free gcode list, every permutation", "all permutations of all blocks", [M+":Machine.process_gcodes", G+":GCode.__lt__"])
p("A block with unusable parameters is refused without side effects",
  "If a block has modal parameters that the current motion mode cannot take (or there is no motion mode), process_block raises MachineInvalidState (or GCodeParameterError) and the machine is left exactly as it was; otherwise, if a gcode fails, the effect is that of the gcodes before it in execution order.",
  "every machine state and block", "every failure point", [M+":Machine.modal_gcode", M+":Machine.process_gcodes", M+":Machine.process_block"])
p("The printed mode reproduces the mode",
  "Reading str(machine.mode) into a fresh null machine sets the same mode in every group, for printable values, unless G96 is active together with a spindle speed (S is then read as a parameter of G96 and lost - shown by a witness). Executing the printed mode on any machine (no canned cycle active) sets those groups, leaves the others and does not move the machine.",
  "every reachable mode", "every combination of modal gcodes", [M+":Mode.__str__", M+":Mode.gcodes", M+":Mode.set_mode", CR])
p("A copied machine is equivalent to the original",
  "copy(m) has the same mode, absolute position and range, and reports the same work position (user expectation). The code loses coordinate-system data: the work position agrees iff the current coordinate-system offset is zero, and a copy asked to use G59.3 raises IndexError.",
  "every machine state", "every state", [M+":Machine.__copy__", M+":State.__copy__", M+":CoordinateSystem.__copy__"])
p("Selecting a coordinate system changes only the work position",
  "After processing G54..G59.3 the current coordinate system is the selected one, abs_pos and all offsets are unchanged, and m.pos is abs_pos minus the selected system's offset minus the temporary offset; after any history in which the mode was set from gcodes, the current system is the one in the mode.",
  "every machine state and history", "unbounded histories", [M+":Machine.set_mode", M+":State.coord_sys"])
p("Programs in inches and in millimetres describe the same motion",
  "Processing G20 before a move makes coordinates inches (user expectation). The code only records the mode: the position is never converted; the exact behaviour (coordinates are taken as raw numbers whatever the unit mode) is proved for all histories.",
  "every history", "unbounded histories", [M+":Machine.set_mode", M+":Machine.move_to"])
p("Cleaning a block removes exactly what the mode cannot take",
  "After machine.clean_block(block): modal parameters left are exactly those (in order) the active motion mode accepts, none if there is no motion mode or the block sets its own motion; gcodes and words are untouched; cleaning twice is the same as once. If a letter the mode accepts occurs twice among the parameters it raises GCodeParameterError instead.",
  "every machine state and block", "every state and block", [M+":Machine.clean_block"])
p("Canned cycle end position",
  "Processing a canned cycle with L loops (L absent or <= 0 counts as 1) in absolute mode ends at the given X/Y with the plane-normal axis unchanged (G98 or none) or at R (G99); in incremental mode the in-plane coordinates are added L times.",
  "every machine state, parameters, loop counts", "every loop count", [G+":GCodeCannedCycle._process"])
p("G80 leaves no motion mode unless the block sets one",
  "After a conflict-free block containing G80 and no left-over parameter words, the motion mode is that block's motion gcode if it has one, otherwise empty; and with an empty motion mode any later parameter-only block is refused until a motion is given. (Left-over words beside G80 go to the motion mode before the block, which then stays active - shown by a witness.)",
  "every machine state and block", "every block", [G+":GCodeCancelCannedCycle", M+":Machine.modal_gcode"])

# ---- transforms ----
p("Omitting redundant motion words does not change the program",
  "For any stream of plain motion gcodes without retained parameters mixed with non-motion gcodes, the printed output of omit_redundant_modes, read line by line by any machine, drives it through the same states as the original stream; nothing but motion words is blanked and parameters are untouched.",
  "every gcode stream and starting machine", "unbounded streams", [U+":omit_redundant_modes"])
p("Absolute-to-incremental conversion preserves the trajectory",
  "For any stream of G0/G1 moves, the converted stream executed in G91 mode from the same start visits the same sequence of positions (moves of zero length removed).",
  "every stream, start position and axes", "unbounded streams", [G+":_gcodes_abs2rel"])
p("Expanded canned cycle ends where the canned cycle ends",
  "When simplify_canned_cycle succeeds, executing its output leaves the position that processing the canned gcode itself gives, for G98 with any L >= 1 (L absent counts as 1), and for G99 in absolute mode or with one hole, if the cycle gives no U, V, W coordinates of axes the machine has; (in incremental G99 with L >= 2, for L = 0 and with U, V or W the two disagree - shown by theorems or witnesses).",
  "all parameters, loop counts and start positions", "all values and loop counts", [T+":simplify_canned_cycle", G+":GCodeCannedCycle._process"])
p("Drilling depth is respected",
  "In the expansion of a drilling cycle every feed move ends at or above the hole bottom and strictly below the previous feed move of that hole, the last one ends exactly at the bottom, and with pecking each feed move goes at most |Q| deeper than the previous one (starting from the retract level).",
  "all depths and peck sizes", "number of pecks is unbounded", [T+":simplify_canned_cycle"])
p("Expansion terminates",
  "simplify_canned_cycle yields finitely many gcodes for every input (user expectation). It does whenever the peck size is non-zero or the hole has zero depth; for G83/G73 with Q0 and a positive depth it never finishes.",
  "all parameters", "non-termination cannot be observed by a test", [T+":simplify_canned_cycle"])
p("Rapid moves never enter uncut material",
  "In the expansion of a cycle, every rapid move in Z ends at or above the depth already drilled in that hole, and every X/Y rapid happens with Z at or above the retract level, provided the start is above the material and, with G98, not below the hole bottom; (a start below the hole bottom makes the final G98 retract plunge - shown by a witness).",
  "all parameters, loop counts", "all pecks of all holes", [T+":simplify_canned_cycle"])
p("Every supported canned cycle can be expanded",
  "simplify_canned_cycle accepts every drilling/boring cycle that the machine itself processes (user expectation). The exact success condition is proved; violated for G82 (NameError), when X or Y is not given, and planes other than XY are refused with NotImplementedError.",
  "all cycles and parameter sets", "all parameter sets", [T+":simplify_canned_cycle"])
p("Linearized arcs end exactly at the commanded point",
  "In absolute mode the last G1 of linearize_arc is exactly the arc's end point (given coordinates, others from the start), for every plane, method and error.",
  "all arcs", "continuum of arcs", [T+":linearize_arc", T+":ArcLinearizeMethod.iter_vertices"])
p("Linearized arcs are a connected chain of the right number of segments",
  "iter_vertices starts at the arc's start, each segment starts where the previous ended, and there are wedge_count segments (one more for the mid and outside methods), with the wedge angle at most the maximum allowed.",
  "all arcs", "any number of segments", [T+":ArcLinearizeMethod.iter_vertices", T+":ArcLinearizeMethod.wedge_count"])
p("Arc centre is at the arc radius from both ends",
  "Whenever linearize_arc does not raise and start and end differ in the plane, the centre it uses lies in the plane at distance arc_radius from both start and end; for R the radius is |R|, and R < 0 selects the other centre.",
  "all arcs", "continuum", [T+":linearize_arc"])
p("Linearization error is at most max_error",
  "Every point of every generated segment lies (in the plane) at a distance from the centre between arc_radius - max_error and arc_radius + max_error (inside: never outside the arc; outside: never inside it; mid: half the error each way), for each method, in the XY plane and in any plane in which the computed angle takes the start to the end; a YZ witness shows that the other planes violate it (C58).",
  "all arcs, errors and points of segments", "continuum of points", [T+":ArcLinearizeInside", T+":ArcLinearizeOutside", T+":ArcLinearizeMid", T+":ArcLinearizeMethod.iter_vertices"])
p("Arc sweep direction and angle",
  "Rotating the start about the centre by the computed angle gives the end; clockwise arcs sweep in [0, 2pi) clockwise, counter-clockwise arcs the other way (user expectation for every plane). Holds for the XY plane; the ZX and YZ planes use the wrong rotation and are refuted by witnesses.",
  "all arcs and planes", "continuum", [T+":linearize_arc", G+":GCodeSelectZXPlane", G+":GCodeSelectYZPlane"])
p("Full circles are linearized",
  "An arc with equal start and end and a centre given by IJK is a full circle (user expectation, standard G-code). The code moves the centre onto the start: the mid and outside methods raise ZeroDivisionError and the inside method yields a single zero-length move; proved for all such arcs.",
  "all full circles", "continuum", [T+":linearize_arc"])
p("Incremental linearization does not drift",
  "In incremental mode, after any number of rounded segments the accumulated position is within 0.5*10^-decimal_places per axis of the exact vertex, so the end point error does not grow with the number of segments.",
  "any number of segments and vertices", "unbounded number of segments", [T+":linearize_arc"])
p("Helical arcs climb proportionally",
  "The displacement along the plane normal at each vertex is the linear interpolation, by swept angle, between start and end heights; it is monotone and never overshoots either end.",
  "all helical arcs", "continuum", [T+":ArcLinearizeMethod.iter_vertices"])
p("Arc parameter validation",
  "assert_params accepts an arc iff it has one of XYZ, exactly one of the groups IJK / R, and R is non-zero; any other parameters raise NameError (the messages use an undefined name); an R arc passes iff its ends are at least max_error apart and within reach of the radius, an IJK arc always does; for the XY plane this decides exactly which calls finish.",
  "all parameter sets", "all combinations and values", [G+":GCodeArcMove.assert_params", T+":linearize_arc"])

# ---- scripts ----
p("pygcode-crop prints exactly the selected lines",
  "The lines printed are those from the first line satisfying the first condition up to (not including) the first line from there satisfying the last condition; 'a:b' with a <= b selects lines a..b-1, 'a:' the lines from a on, ':b' those before line b and ':' all lines; nothing is printed if no line satisfies the first condition.",
  "all files and ranges", "all files", [CR])
p("pygcode-crop's preamble puts the machine where it was",
  "Executing the printed mode and the three rapid moves puts the machine at the position and mode it had before the first kept line (user expectation). Position holds in absolute mode with no offsets; violated in G91 mode, and the motion mode is left at G0 so a first line with only parameters changes meaning.",
  "all files and crop points", "all histories", [CR])
p("pygcode-crop's preamble travels at the highest level seen",
  "The preamble first moves the plane-normal axis to the highest value reached in the removed part, then moves in the plane at that level, then to the final level, so the in-plane move is never below any removed position (in absolute distance mode, without offsets and without an active canned cycle, for coordinates that print exactly).",
  "all files", "all histories", [CR])
p("pygcode-norm --full / --singles preserve the program",
  "Without transformations, running the output of --full through a machine gives the same states as the input, line by line; --singles splits a line into its gcodes in execution order with the same effect (user expectation). --singles without --full drops modal parameters of a line that also has several gcodes (witness).",
  "all programs", "all programs", [NO+":write", NO])
p("pygcode-norm canned-cycle expansion agrees with the machine",
  "With --canned_expand, after each line the position of a machine running the output equals norm's own machine (user expectation). Violated under G99 since the retract mode is not passed on, and for cycles with L0, which the machine takes as one hole and the expansion as none; holds otherwise.",
  "all programs", "all states", [NO, T+":simplify_canned_cycle"])
p("Choosing a default dialect takes effect",
  "After dialects.set_default(name), get_default() returns name (user expectation). The code assigns a local variable: get_default() returns 'linuxcnc' after any sequence of calls.",
  "all sequences of calls", "unbounded histories", [D+":set_default", D+":get_default"])

p("pygcode-norm's finalizing moves are safe and end at zero",
  "With --zero_xy the lines added at the end first move Z alone to the safe height, then X and Y to 0 at that height; with --zero_z they then move Z to 0; with --spindle_off the spindle is stopped; nothing else changes but distance and motion mode, whatever the distance mode, offsets and coordinate system at the end. Without --rapid_safety_height the safe height is the greatest Z of any position of the program, so never below the last position. Without any of the three options nothing is added, with one of them the added lines begin with a comment, unless comments are removed. (Runs without --rm_gcodes, whose entries also remove finalizing lines, and without --rm_invalid_modal; heights that print exactly. The lines come after an M2/M30 of the program.)",
  "all programs, options and machine states", "all histories and offsets", [NO])
p("Block text is cleaned up to single spaces",
  "The text of a block is its blank-free chunks joined by single spaces: no character that is not blank is lost, added or moved, blanks never stand at either end or next to each other, cleaning up twice is cleaning up once, and two texts with the same chunks make the same block.",
  "all texts", "infinitely many texts", [B+":Block.__init__"])

p("Binary floating point does not show in programs",
  "Python stores word values as binary64 floats. A value text with at most three decimals and six digits, read into a float and printed again, gives the same text as exact decimal arithmetic, for float words and for G/M codes (only the sign of a zero can remain, '-0'); any float within 0.0005 of such a decimal prints as it; and words read from decimals of up to 15 digits compare as the decimals do.",
  "all value texts and all floats in range", "there are 2^64 floats; representation errors show up only for particular values",
  [W+":Word.value", W+":Word.value_str", L+":CLEAN_FLOAT", L+":_clean_codestr"])
p("Rounding errors of moves do not show",
  "After any sequence of n incremental moves the float coordinate of a machine differs from the exact sum by at most 82*(n+1)*B/2^53, when coordinates, offsets and distances stay within B; so as long as (n+1)*B <= 5*10^10 it prints as the exact coordinate whenever that has at most three decimals and six digits. Without offsets, an axis a move does not mention keeps exactly its value.",
  "all sequences of moves, offsets and start positions", "drift accumulates over long histories that no test runs",
  [M+":Machine.move_to", M+":Machine.abs2work", M+":Machine.work2abs", M+":Position.__add__"])

p("pygcode-norm --arc_linearize keeps the program",
  "With --arc_linearize (also together with --canned_expand, --full, --singles), the printed program is accepted by a machine and leads to the same state, offsets and modes other than motion as the input, with a position that differs per axis by at most eps + 0.0005 per linearized arc, and by at most that much in all if the arcs are in absolute mode, where eps < 0.0005 is how far computed coordinates are from exact ones; in the XY plane the path of the machine reading the printed moves stays within --arc_precision + 2*(eps + 0.0005) of the arc at every point, starting from a machine near the start; and without the option nothing changes.",
  "all programs, options, arcs and points of their paths", "continuum of arcs and any number of them; the errors add up over long programs", [NO, T+":linearize_arc"])
p("Values of --arc_lin_method",
  "A non-empty value is accepted iff the help text gives it a meaning (one of i, o, m, or two of them separated by a comma), and then the first is the method for G2 and the last the one for G3; one line break at the end is passed over, although the help text does not say so. An empty value means m for both. Values matching the option's case-insensitive pattern should be accepted too (user expectation): those with a capital letter, an i without a dot or a capital I with a dot raise KeyError instead of being accepted or reported; all others are reported.",
  "all texts", "infinitely many texts", [NO+":arc_lin_method_type"])

p("len(block) is the number of gcodes executed",
  "The length of a block is the number of gcodes a machine executes for it: those of the block, and one more, made from the active motion mode, if there are parameters without a gcode.",
  "all blocks and machines", "all blocks", [B+":Block.__len__", M+":Machine.block_modal_gcodes"])
p("Gcodes built from their class or from text",
  "cls(**params) gives a gcode that a reader would identify as cls, with exactly the given parameters; letters the class does not accept are errors; a number for the word is taken by feed rate, spindle speed, tool, line number and program name only; text2gcodes gives all words of the text in gcodes and refuses text with words that belong to none; and the text of a gcode is read by text2gcodes as the same gcode.",
  "all classes, parameters and texts", "all combinations of classes and parameters", [G+":GCode.__init__", G+":GCode._default_word", G+":text2gcodes"])

p("pygcode-norm --rm_gcodes removes exactly the listed gcodes",
  "For programs outside the corners named in the note of C66 (normalizing): with --full, the printed program does to a machine what the input does when the listed gcodes are left out of what it executes (words that come from the active mode are still interpreted by the mode of the original program); no printed line contains a listed gcode; without --full the same holds for the gcodes written on the lines, the words left over being interpreted by the active mode of the reader (the help text says the option works for modal parameters with --full only; a program where it makes a difference is given); and programs that contain no listed gcode are printed as without the option.",
  "all programs, lists of gcodes and text options", "all programs and lists; the effect shows up in what is executed lines later", [NO+":write"])
p("pygcode-norm --rm_invalid_modal removes exactly the invalid words",
  "For programs outside the corners named in the note of C66 (normalizing): when the script finishes with --rm_invalid_modal, the printed program is accepted by a machine that does not tolerate invalid words, and it does what the input does without the words that the active motion mode does not accept; a program without such words is printed as without the option. Programs processed without the option should be processed with it as well (user expectation): a line that gives a letter twice, accepted otherwise, raises GCodeParameterError.",
  "all programs and text options", "which words are invalid depends on the mode set any number of lines before", [NO, M+":Machine.clean_block"])

p("Word lists of pygcode-norm options",
  "The value of --canned_codes or --rm_gcodes is accepted exactly if it is words separated by commas (any blanks around a comma, letters in either case, blanks around a number), and stands for these words; printed words joined by commas read back as the same words; and the default of --canned_codes is accepted and lists a gcode exactly if it is a canned cycle.",
  "all texts and words", "infinitely many texts; the default is computed from the class hierarchy", [NO+":word_list_type", NO+":DEFAULT_CANNED_CODES", W+":Word.__init__"])
p("No canned cycle is left by pygcode-norm --canned_expand",
  "For programs as in the note of C67 (canned expansion) with at most one listed cycle on a line, when the script finishes, every printed line can be read and contains no gcode listed in --canned_codes; with the default list it contains no canned cycle at all. With two listed cycles on a line the second is printed as it is (example).",
  "all programs, lists of cycles and text options", "all programs; whether a line is expanded depends on the mode set lines before", [NO])

p("Changing a gcode does not change the machine that executed it",
  "In a program that makes gcodes, assigns their parameters and has a machine execute gcodes and texts, an assignment changes that gcode only (user expectation): the other gcodes, and what the machine does with later lines, are as if the machine had its own copy. It holds when no modal parameter is assigned; with a modal parameter of a canned cycle the machine's mode changes too, because modal_copy hands on the word objects.",
  "all sequences of creations, assignments and executions", "whether two objects share a word shows up only in what a later line does", [G+":GCode.modal_copy", G+":GCode.__setattr__", M+":Mode.set_mode"])

p("The form of what pygcode-norm prints",
  "Every printed line can be read; it has the comment of its input line unless --rm_comments is given; with --singles it has at most one gcode, with --full no left-over words, with --rm_whitespace no blanks in its block; comments and (expected) macros are all shown, in the order of the lines, also those of lines whose cycle is expanded or whose arc is linearized (there on a line of its own); and with --rm_blanks no empty line is printed, for any program. A macro is lost when --singles splits its line or a cycle of its line is expanded.",
  "all programs and text options", "all combinations of options with all programs", [NO+":write", NO+":split_and_process"])

p("Linearizing: the lines follow the arc from start to end",
  "The lines generated for an arc G2/G3 and the arc itself (from the start about the centre, clockwise for G2 and counter-clockwise for G3, by less than a full turn, to the end; at most half a turn for R > 0 and at least half a turn for R < 0) can be run through alongside each other, without going back on either, so that the two points are never further apart in the plane than max_error (half of it for the mid method): every point of the arc has a point of the lines near it in the same order, and every point of the lines has a point of the arc near it. In incremental mode the distance is larger by at most the rounding of one increment (half a unit of the last place on both axes).",
  "All arcs with different end points, positions, methods, errors, fractions of the arc and points of the lines; absolute and incremental mode.", "Infinitely many arcs and uncountably many points of each; the matching of the two paths cannot be seen from end points or distances from the circle.", [T+":ArcLinearizeMethod.iter_vertices", T+":linearize_arc", T+":ArcLinearizeInside", T+":ArcLinearizeOutside", T+":ArcLinearizeMid"])

p("Which texts fail, and how",
  "Line(text) raises AttributeError exactly for a line break before something other than blanks, GCodeWordStrError exactly for a block text that is no sequence of words, GCodeParameterError exactly for a letter given twice to one gcode, AssertionError exactly for two gcodes that are the same word or of one modal group; every other text is a line. machine.process_str(text) then raises MachineInvalidState exactly for left-over words the motion mode cannot take, AttributeError exactly for a canned cycle with no plane in effect, TypeError exactly for a canned cycle under G99 with no R known or in a plane with no normal axis (G17.1, G18.1, G19.1), and nothing otherwise; a text that is no line, or whose left-over words cannot be taken, leaves the machine as it was.",
  "all texts; all machine states reachable by executing texts, with the axes X, Y, Z", "Absence of any other exception has to hold for every text and every state.", [LN+":Line.__init__",B+":Block.__init__",W+":text2words",G+":words2gcodes",M+":Machine.process_gcodes",M+":Machine.process_str",M+":Machine.modal_gcode",G+":GCodeCannedCycle._process"])

p("Displaced programs do the same, displaced",
  "A machine whose position, range and coordinate systems are all displaced by d executes every program like the original: after any texts the next text raises the same exception, mode and work position are the same, and absolute position and range are displaced by d. In incremental mode (no G90) it is enough that the start is displaced.",
  "all displacements, machine states, programs of any length, absolute or incremental, with canned cycles and changes of the coordinate system", "A relation between two runs over all programs and displacements.", [M+":Machine.move_to",M+":Machine.abs2work",M+":Machine.work2abs",M+":Machine.process_str",G+":GCodeCannedCycle._process"])

p("The layout of a line does not matter",
  "Two lines that write the same letters with the same numbers do the same on every machine, whatever the case of the letters, the blanks before letters, between a letter and its number and at the end, and whatever comments are behind a semicolon or in brackets. Blanks anywhere, even inside a number, should be meaningless as well (RS274), which the code does not follow.",
  "All texts, all lists of letters and numbers without O words, all layouts, all comments, all machines", "Tests try a handful of spacings of a handful of lines; the reader is a table of regular expressions per letter, each of which treats blanks on its own.", [W+":text2words", W+":WORD_MAP", LN+":Line.__init__", CM+":split_line", B+":Block.__init__", M+":Machine.process_str"])

p("Line numbers change nothing",
  "A line with line numbers (N words) anywhere among its words is grouped into the same other gcodes and the same left-over words, fails alike, and does on the machine exactly what the line does without them; the same holds for all gcodes that belong to no modal group and move nothing.",
  "All word lists and texts with pairwise different N words, all layouts and comments, all well-formed machines whose current coordinate system is the one of the mode", "A word in front of, or between, a gcode and its parameters could take or block parameters, count as a conflict, be sorted wrongly or touch the mode; tests use a few numbered lines.", [G+":GCodeLineNumber", G+":words2gcodes", G+":GCode.process", B+":Block._assert_gcodes", M+":Machine.process_gcodes", M+":Machine.set_mode"])

p("When pygcode-norm gets to the end of a program",
  "Whatever its options are, pygcode-norm without --canned_expand gets to the end of a program exactly when executing the lines one after the other does; otherwise it raises the error of the first line that fails, and in both cases its machine is in the state the execution leaves. With --canned_expand it gets to the end exactly when in addition every line on which a listed gcode is in effect has a canned cycle, and the first such cycle can be replaced where it is reached: the plane is XY, and unless it is done no times, R, X, Y and Z are given, Z is not above R, the cycle is not G82, and a pecking cycle has a Q that is not 0 (or no depth). The finalizing lines never fail. A program that can be executed but has G82 is never normalised with the default list.",
  "all option values, all programs of any length and all machines a program can reach; with --rm_invalid_modal the lines executed are those with the rejected words taken out", "no set of files shows that no combination of options and program makes the script fail where the execution succeeds, nor that the list of reasons for a failed expansion is complete", [NO, NO+":split_and_process", NO+":write", G])

p("--rm_invalid_modal is removing the words first",
  "With any combination of the other options, what pygcode-norm --rm_invalid_modal prints for a file is what it prints without the option for the file from which the invalid words (left-over words that the active motion mode does not accept, or that stand beside a motion gcode) have been removed by hand, and the machine ends in the same state. Such a file exists whenever the words of the lines print exactly. So the guarantees about expansions, linearized arcs and formats carry over to runs with the option.",
  "all files on which the script finishes, all options including --canned_expand and --arc_linearize, all starting modes", "The interaction of one option with all others over arbitrary files and machine states is beyond examples; each line's outcome depends on the modes left by all earlier lines.", [NO+":313-357", M+":clean_block", M+":modal_gcode"])

p("Options that only change how the lines of pygcode-norm are shown",
  "--rm_gcodes, --rm_comments, --rm_blanks and --rm_whitespace change only how the lines written by pygcode-norm are shown. For two sets of options that differ only in these four, with every other option (including --rm_invalid_modal, --full, --singles, --canned_expand and --arc_linearize) the same: the script reads the same lines, ends the same way (end of file, or the same error), with the machine in the same state; and there is one list of lines (gcodes, left-over words, comment, macro) from which both outputs come: gcodes whose word is listed in --rm_gcodes are left out, comments are left out with --rm_comments, blanks within a line are left out with --rm_whitespace, and empty lines are left out with --rm_blanks. In particular --rm_blanks removes exactly the empty lines of the output, --rm_gcodes never changes what the other gcodes on the line look like, and without --rm_blanks all these options give the same number of lines.",
  "for all programs, all starting modes, all options, and all results of the floating point computations of arcs", "The four options are tested (if at all) one at a time on short programs; that they never interfere with the machine, with errors or with each other is a statement about every pair of option sets and every program.", [NO+":write", NO+":gcodes2str", NO+":__main__"])

p("Modal groups, order of execution and parameters are the published ones",
  "The tables of the G-code language copied into gcodes.py (modal groups, order of execution, parameters of each code) are what the classes implement: every word that is read as a gcode is in the modal group that the table gives for it; a block is refused exactly if two of its gcodes have the same word or are in the same group of the table; the gcodes of a line are executed in the order of the table; every gcode accepts exactly the parameters of the table, except that S is a gcode of its own with M3, M4, M5 and G97. Every word of the tables should be read and M7 and M8 can both be on (user expectation): violated for G84, G86 to G88, M70 to M73 and M100 to M199, which no class reads, for G80, which is in no group (on purpose), and for M7 with M8.",
  "for all words and blocks", "The tables have 150 words and ranges of words; combinations of two words on a line are tens of thousands, and words like G38.25 or N<anything> cannot be enumerated.", [G+":MODAL_GROUP_MAP", G+":GCode.exec_order", G+":GCode.param_letters", B+":Block._assert_gcodes"])

p("Commands that the machine does not carry out",
  "G28, G28.1, G30, G30.1, G53, G92, G92.1-G92.3, M19, N and O words are exactly the gcodes without modal group, effect and parameters; a line with them (all different) does to a machine exactly what it does without them, also if it fails. No program, G10 and G92 included, ever changes the offset of a coordinate system or the temporary offset. (User expectation: G92 sets an offset, G53 makes coordinates absolute, G28 goes home. Violated: 'G92 X1' moves to X1 in the active motion mode, 'G53 G0 X1' goes to X1 of the work coordinates, 'G28' does not move.)",
  "all lines, all machines whose coordinate system is the one in the mode; all programs for the offsets", "The effect of a missing implementation is spread over word dealing, sorting, conflicts and the motion mode; the claim is about every line and machine.", [G, M])

p("A cropped file goes on as the file does",
  "What pygcode-crop prints for a range, read by a new machine, is accepted, and after every printed line the machine has the position, coordinate system and modes that the original file gives at that line (the motion mode as soon as a printed line has set it, or from the start if it was G0). Conditions: the file executes; absolute distance mode, no active canned cycle and printable values before the first printed line; printed lines that keep their meaning when printed (C13); no printed line has left-over words for the motion mode before one of them has set it, unless the motion mode was G0. Without the last condition the cropped program may not be accepted (witness: left-over words of an arc).",
  "all files that execute, all ranges over line number and position, all printed lines", "It joins the preamble, the printing of lines, re-reading and the execution of arbitrarily long files; tests compare single outputs and never execute them.", [CR, M+":process_block", LN])

p("A scaled or mirrored program does the same, scaled or mirrored",
  "Replace every word of a program so that axis words are multiplied by a factor of their axis, R words by the factor of the normal axis of every selected plane, and every other code by one of the same kind (same parameters, modal group, place in the execution order, kind of motion). Run on a machine scaled the same way, after any number of lines (failing ones included) the absolute and the work position are scaled by the factor of each axis, so is the range (with its ends exchanged for negative factors), the modes hold the replaced codes, and the next line raises the same exception or none. In particular: all lengths times s; inches rewritten in millimetres (the numbers grow by 25.4, as pygcode's positions are the numbers of the program); a mirror image in X with the sense of arcs, cutter compensation and spindle exchanged (planes other than YZ).",
  "all programs, all factors, all admissible replacements of codes, all machines with their own offsets and coordinate systems", "two whole programs are related, over all inputs", [M+":work2abs", M+":move_to", M+":modal_gcode", G+":words2gcodes", G+":GCodeCannedCycle", G+":GCodeMotion"])

p("Programs printed from binary floating point",
  "Python prints words from doubles, not from exact values. If the double of every float word is less than 0.0005 off the exact value (as the double read from a text that writes the value is, and as results of arithmetic are within the drift bounds), a printable word prints as the exact value does, except that a zero may print as -0. A line of such words, with its comment and macro, is read as the line printed from the exact values is: same words, gcodes, left-over words, comment and macro; and a machine that reads a printed program does the same in both cases. So what the other properties say about reading printed programs holds for the texts Python prints.",
  "all lines of printable words (no program names), all doubles within the bound for each word, programs of any length, all machines", "The sign of a zero depends on how the value came about; which words of which lines print -0 cannot be enumerated, and a test that compares texts fails where nothing is wrong.", [W+":Word.value_str", L+":CLEAN_FLOAT", LN+":Line.__str__", B+":Block.__str__"])

p("A file cropped into pieces",
  "Cutting a file with pygcode-crop loses no line and repeats none. The ranges ':b' and 'b:' print the lines before the first one where the conditions b are true and the lines from there on, whatever b is. The ranges ':b1', 'b1:b2', ..., 'bk:' print the pieces of the file, each with the way to its first line in front, provided that no condition is true before the line where the piece in front of it begins (line numbers in increasing order, for example); without this lines are printed again (witness). A new machine that reads all the pieces one after the other gets to where the file leads: same position, coordinate system and modes (the motion mode if the last piece sets it, or goes on with G0). Conditions for the last part are those of C93 at every cut.",
  "all files that execute, all conditions on line numbers and on X, Y, Z, any number of cuts", "The outputs of several runs are put together; the claim is about every file and every set of cuts, and about the machine across the pieces.", [CR, M+":process_block", LN])

p("Cropping a program normalized with --full",
  "Every line that pygcode-norm --full prints for a tidy program names its own motion gcode, so no line has words left over for the motion mode. Machines that differ at most in their motion mode therefore do the same with the printed program, and get the same motion mode from the first line that sets one. What is printed can be cropped by pygcode-crop wherever the machine before the first line can be printed exactly: the cropped file leads a new machine, line by line, where the whole file does, without the condition on motion words that cropping has in general, and a range that is open at the end leads to where the original program leads.",
  "all programs with tidy lines (C66), all crop conditions on line numbers and on X, Y, Z, all ranges, machines with any motion mode", "Two scripts are composed; the claim is about every program, every place it is cut, and the machine that reads the result.", [NO+":gcodes2str", NO+":write", CR, M+":modal_gcode", M+":process_block"])

p("Length and number of the lines of a linearized arc",
  "The lines that replace an arc are together about as long as the arc, so a machine at constant feed rate takes about as long for them. Their length (in space, for helices too) lies between the lengths of two helices with the sweep and climb of the arc: on radius r - max_error and r for the inside method, r and r + max_error for outside, r and r + max_error/2 for mid. A larger max_error never gives more lines, and the number of lines is less than |angle|/2 * sqrt(r / min(max_error, r)) + 2.",
  "all arcs with different ends in the plane, all methods, tolerances and numbers of digits; XY plane through linearize_arc, other planes under the sweep condition of C83", "Lengths and counts are real-valued functions of the arc; a test sees single arcs, and floats at that.", [T+":linearize_arc", T+":ArcLinearizeMethod"])

p("Displaced and reversed arcs",
  "`linearize_arc` does not depend on where an arc is drawn or in which direction it is run. An arc whose centre is relative to its start (or that has R), begun elsewhere with its end displaced likewise, gives the same lines displaced likewise (absolute distance mode) or the very same increments (incremental mode, with the rounding of each of them), and it fails with the same exception if the other one fails. An arc in the XY plane and the arc that runs back along it (G2 for G3, from its end to its start, same R or same centre) give the same corner points in opposite order.",
  "Displacement: every arc, displacement, start position, plane, method, tolerance, number of decimals, both distance modes, arc distance mode incremental. Reversal: every arc in the XY plane whose end differs from its start (with R, or with a centre that is not on the line through both ends outside them; for those centres the two arcs are shown to be drawn on different sides of the line), absolute distance mode, both arc distance modes, every method and tolerance.", "The tests linearize a few arcs around fixed places and never compare the results with one another; a term that depends on the absolute place or on the direction shows only when two runs are compared, for all places and all sweeps.", [T+":linearize_arc", T+":ArcLinearizeMethod"])

p("Characters beyond ASCII",
  "Texts are read the same whichever decimal digits of Unicode they are written with, and `ı` and `ſ` are read as I and S: `text2words` gives the same words, or the same exception, as for the ASCII text with the same digits; only the values of T and O, which are texts, keep the characters as written. On ASCII texts nothing depends on the Unicode version. `İ` (U+0130) and the Kelvin sign (U+212A) are taken for letters by the regex but are not keys of the word table: after text that is read they raise KeyError, where other bad text raises GCodeWordStrError. A separator U+001C to U+001F between a letter and its number raises ValueError in an ASCII text, but cannot reach `text2words` from a block, whose blanks have become spaces.",
  "Every text, every set of decimal digits that contains 0 to 9, no other ASCII characters, no blanks and none of the four letters; for the reading of digits and letters, texts without \u0130, Kelvin sign and separators.", "Tests use ASCII. The agreement has to hold for every mixture of digits, letters and blanks, and for the digit tables of every Unicode version.", [W+":text2words", L+":REGEX_FLOAT", B+":Block.__init__"])

p("Which programs pygcode-norm --arc_linearize gets through",
  "linearize_arc finishes exactly for arcs with a positive precision, one of X, Y, Z, either I/J/K or a non-zero R, one of the planes XY, ZX, YZ, where an R arc has its ends at least the precision apart and within twice the radius, where ends that coincide are given the inside method and a centre elsewhere, and where in the ZX and YZ planes with the other methods the ends are on different sides (in Z) of the centre. pygcode-norm with any of its options gets to the end of a program exactly when executing the lines does and, on every line with an arc (with --arc_linearize) or a listed gcode (with --canned_expand), the first arc or cycle can be replaced at the state where it is reached; the machine is then in the state the execution leaves, whatever floats are computed for the vertices, and the finalizing lines never fail. Full circles and arcs of the ZX plane on one side of their centre are executed but never linearized with the default method.",
  "all arcs, planes, methods and precisions; all option values, programs of any length, machines a program can reach, and results of the floating point computations of the vertices", "the conditions depend on geometry (real numbers) and on the state the machine has reached after arbitrarily many lines; a test can only show that one arc passes or fails", [T+":linearize_arc", NO+":split_and_process", NO+":args.arc_linearize"])

p("Files: line endings do not matter, and printed output is read back as printed",
  "Whichever of the three line endings (LF, CRLF, CR) a file uses, and whether or not its last line has one, pygcode-norm (with any options), pygcode-crop and the virtual machine do with it what they do with the list of its lines. And for any file at all, any options and any start mode made from text, no line printed by pygcode-norm or pygcode-crop contains a line ending, also when the script ends with an exception: the text printed, read as a file, is exactly the printed lines, so that everything proved about the scripts' lists of lines is true of files.",
  "all texts of files, all options, all start modes made from text, all ranges, all functions computing the vertices of arcs, and all machines reading the output", "A test feeds a few strings, as a rule one line at a time and without line endings; that no comment, macro, word, printed mode or generated comment can carry a line ending into the output needs an argument about everything that is printed.", [NO+":write", NO+":infile", CR+":infile", LN+":Line", M+":Mode.__init__"])

p("The start mode of a machine is what its text says",
  "`Mode()` with a `default_mode` text (that of the class, or the option --machine_mode of pygcode-norm) finds the lines of the text whatever blank lines and indentation it has, and sets in each modal group the modal copy of the last gcode of that group in the text; groups without a gcode stay empty. If a line cannot be read, its exception is raised, the first such line deciding. The class's own text gives the default mode; the text of a printed mode gives that mode again. A mode made from text is always one the theorems about the scripts apply to, and the machine started with it is consistent exactly if the mode has no coordinate system or the first.",
  "all texts made of any number of lines, all modes, all options of pygcode-norm", "The text is a user's option with any number of lines and gcodes in any order; a test tries a few.", [M+":Mode.__init__", M+":Mode.set_mode", M+":Machine.__init__", NO+":machine_mode"])

p("What depends on the mode only, and normalizing in pieces",
  "Machines that have the same axes and the same mode, wherever they are and whatever their offsets and ranges, raise the same exceptions for the same texts and have the same mode afterwards. Without --canned_expand and --arc_linearize pygcode-norm prints the same for both. It works through a file line by line: the output for the first lines does not depend on the others, and what was printed before a failing line stays. So a file can be normalized in pieces: the output for the whole is the output for the first piece followed by that for the second, normalized with the printed mode at the end of the first as --machine_mode.",
  "all pairs of machines as made by the constructor, all sequences of texts; for the script all options without --canned_expand, for the pieces also without finalizing moves, and modes with values that print exactly", "Tests compare a few positions; that no position at all can change an outcome needs a proof over all of them and over every gcode.", [M+":Machine.process_str", M+":Machine.move_to", NO+":write", NO+":machine_mode"])

p("Scaled, turned and mirrored arcs are replaced by scaled, turned and mirrored lines",
  "linearize_arc commutes with changes of scale and with similarities of the plane. (scaled) If every coordinate, centre offset and radius of an arc, the start position and max_error are multiplied by the same positive number k, the end points of all yielded lines are multiplied by k, their number does not change, and an arc that is refused is refused with the same exception; this holds in every plane, for every method, for both arc distance modes and for both ways of giving the centre. In incremental distance mode, where increments are rounded, it holds for powers of ten when decimal_places is lowered by the exponent. (similar) In the XY plane and absolute distance mode, if start, end and centre are mapped by any similarity of the plane (displacement, turning, mirroring, scaling) and the heights by any affine map of their own, with G2 and G3 exchanged when the similarity mirrors, and max_error multiplied by the scale, the end points of all yielded lines are mapped in the same way.",
  "all arcs, start positions, scales, similarities, methods, tolerances and decimal places; for the scaled form also all planes and modes", "Tests compare a few arcs at one scale and orientation; that a computation with square roots, arc tangents, remainders and case distinctions has no preferred scale, direction or handedness concerns all arcs together.", [T+":linearize_arc", T+":ArcLinearizeMethod", U+":plane_projection"])

p("The geometric utilities turn, align and project as documented",
  "The product of two quaternions applies one after the other. A quaternion of length one keeps lengths, angles and handedness, and its conjugate undoes it. quat2align(a, b) is such a quaternion, turns the direction of a to that of b and leaves what is perpendicular to both, for all non-zero a and b that are not opposite. quat2coord_system(o1, o2, a1, a2) is one for all perpendicular non-zero pairs and turns o1 to a1 and o2 to a2, unless one of its two steps aligns opposite directions. The quaternions of the ZX and YZ planes turn the axes of the XY plane to theirs, the conjugates turn back, and the way from ZX to YZ goes through XY, as the comment in gcodes.py says. plane_projection(v, n) is the one nearest point to v in the plane through the origin perpendicular to n.",
  "all vectors and quaternions over the reals", "The functions have no tests of their own beyond a few fixed vectors, and statements about all directions, with a singular case among them, cannot be sampled.", [U+":quat2align", U+":quat2coord_system", U+":plane_projection", G+":GCodePlaneSelect"])

p("The listing of the gcode classes, the comment in __init__.py and the descriptions agree with the lookup",
  "_subclasses lists every class defined below a class exactly once, with the number of base classes between, base classes before the classes deriving from them, and classes with the same base class by name, each followed by all that derives from it. For the classes of gcodes.py, _gcode_class_infostr(prefix='    # ') prints the comment in __init__.py line by line (up to blanks at line ends); every class is imported there and in __all__. The description of the class found for a word begins with this word, or a list or range or the letter it belongs to, except for the nine coordinate systems; and a word named at the beginning of the description of a class is found as this class or one deriving from it, except for GCodeUserDefined (M101-M199), which is found for no word.",
  "all class hierarchies (each class defined after its base class) for the order; all words and all classes of gcodes.py for the rest", "The comment was pasted from the output once, no test compares them; no test looks at descriptions; the order of a generator over arbitrary later subclasses cannot be sampled.", [G+":_subclasses_level", G+":_subclasses", G+":_gcode_class_infostr", G+":word_gcode_class", "src/pygcode/__init__.py"])

p("Gcode classes defined by users",
  "Classes with words of their own, defined before the first lookup, are found for those words in every lookup (letters G M F S T N O), and every other word is found as without them. What counts is what is defined at the first lookup: classes defined later are never found, unless build_maps is called, after which lookups answer from all classes defined by then. If two classes have the same word, every lookup raises RuntimeError; that happens for each class deriving from one with a word without giving its own, as word_key is inherited. A class without a word that inherits the test of a base class is never found.",
  "all hierarchies of user classes, all sequences of definitions, lookups and builds", "The registry is module state filled once; tests run against the built-in classes and never define one after or before the first lookup.", [G+":build_maps", G+":word_gcode_class", G+":_subclasses", G+":GCodeUserDefined"])

p("pygcode-norm --canned_expand on its own output",
  "Run on its own output, the script (with --canned_expand and the same options) ends normally and prints the same lines, but for blanks at the beginning of lines; a third run prints exactly what the second did. With --full or --rm_whitespace the second run already prints its input exactly. Without these options it need not: a line printed for a hole begins with a blank that the second run drops.",
  "all programs meeting the conditions of C67 with at most one listed gcode on a line, started in a motion mode that is not listed, all option combinations without --rm_gcodes and --rm_invalid_modal", "Idempotence is about every printed line of every program: tests never feed the script's output back to it.", [NO+":243-278", NO+":339-357", U+":omit_redundant_modes"])

p("pygcode-norm --arc_linearize leaves no arc, and on its own output",
  "No line printed by the script with --arc_linearize (and, optionally, --canned_expand) has an arc, nor a listed cycle if these are expanded. Run on its own output it ends normally and prints the same lines but for blanks at the beginning of lines (exactly the same with --full or --rm_whitespace), whatever arc options and floating-point results the second run has; a third run prints what the second did.",
  "all programs meeting the conditions of C73 with at most one arc or listed gcode on a line, started in a motion mode that is neither, all floating-point results within the bound of C73, all option combinations without --rm_gcodes and --rm_invalid_modal", "The property concerns every line printed for every arc; tests linearize a few arcs by calling the library function and never read the script's output.", [NO+":243-278", NO+":312-357", T+":linearize_arc", U+":omit_redundant_modes"])

p("Error messages name the words at fault",
  "A block is refused exactly when there is a message by the following rules. Text that cannot be read as words: the message names the first letter not followed by a value, or quotes what follows the last word. Words that cannot be grouped: it names the two words with one letter given to the same gcode (of the first such gcode, and its first repeated letter). Gcodes that cannot be together: at the first gcode clashing with an earlier one it lists the gcodes of the same modal group, in order. A machine given left-over words it cannot use raises with a message that shows its mode and lists these words, calling them unsupported gcodes exactly if one has the letter G or M. Expected also: the lists name all words at fault and only those.",
  "all texts; all word lists; all gcode lists; all machines whose motion mode (if any) is a gcode read from text, and all left-over words", "Tests that provoke an exception check its class; none looks at the text, and the set of failing inputs is unbounded.", [W+":91-125", G+":245-256", G+":1459-1525", B+":58-79", M+":411-445"])

p("What a failing line leaves behind",
  "When process_str raises an exception, exactly one of these is the case. The text is no line, or its left-over words cannot be taken by the motion mode: the machine is as it was. Or a canned cycle could not be executed: the gcodes that come before it in the order of execution have been executed, the cycle has become the motion mode and has moved nothing, and the gcodes after it are not executed; position and range are those from before the line unless the line has a motion gcode of its own beside left-over words. Expected also: a line that raises an exception leaves the machine as it was, which does not hold in the second case.",
  "all texts, all consistent machines with at least the axes X, Y, Z", "Tests check that an exception is raised; none looks at the machine afterwards, and which part of a line has been executed depends on all gcodes of the line and on the modes.", [M+":485-518", M+":411-451", G+":320-341", G+":545-561"])

p("The lines of an arc keep step with it in space",
  "Let an arc or helix be run through at a constant speed from time 0 to time 1, and its lines so that each line is run through at a constant speed, all lines taking equally long (with mid and outside, the first and the last line half as long as the others). Then at each time the point on the lines is exactly as high above the plane of the arc as the point on the helix, and no further from it than max_error (inside, outside) or half of it (mid). In particular the lines have such a point for each point of the helix. linearize_arc does this in the XY plane for the helix that the gcode asks for: about the given centre (if this is not equally far from both ends, about the nearest place that is as far from both as the given one on average) or with the given radius, in the given direction, from start to end.",
  "all arcs and helices whose end differs from the start in the plane, all tolerances above 0, the three methods, all times", "A test can look at the corners of some arcs; how far a line and the arc drift apart between corners while both are run through is a statement on all real times and all arcs.", [T+":20-215", T+":218-383"])

p("What is printed for an arc keeps step with it in space",
  "For an arc or helix in the XY plane that pygcode-norm --arc_linearize replaces, in either distance mode, there is one helix from the start of the arc to its end, about the given centre (if this is not equally far from both ends, about the nearest place that is as far from both as the given one on average) or with the given radius (and on the side its sign asks for), in the given direction, such that a machine reading the printed lines keeps step with it: along each printed line, at each moment, its height differs from that of the helix by at most eps + 0.0005, and its distance from the helix in the plane is at most --arc_precision (half of it for mid) plus twice that, where eps < 0.0005 is how far computed coordinates are from exact ones. All lines take equally long (with mid and outside the first and the last half as long).",
  "all arcs and helices with different ends in the plane that linearize_arc accepts, coordinates up to 999, all text options, all machines near the one of the script, all lines and moments", "Printing, rounding, omission of repeated words and reading back act together on every line; tests compare single numbers of a few arcs.", [NO+":323-339", T+":20-215", T+":218-383", M+":485-518"])

p("What a position shows can be read back",
  "A position shows one word for each of its axes, in the order of the letters, with the coordinate of that axis. If all coordinates are below 999.9995 in size, the words shown are read back as those of a position with the same axes whose coordinates differ by at most 0.0005; so positions that look the same have the same axes and coordinates within 0.001 of each other, and states that look the same have the same coordinate system selected and such offsets. Positions equal for == look the same (the unit is not shown, and does not count for == either).",
  "all positions with any axes, all states", "Any set of axes and any rational coordinates; the printed text passes through the regular expressions of the reader.", [M+":169-188", M+":83-92", M+":200-204", M+":256-261", W+":47-48"])

p("Everywhere in a program, the lines printed for an arc keep step with it",
  "For every program on which pygcode-norm --arc_linearize (with or without --canned_expand) finishes, and every arc or helix of it in the XY plane with different ends in the plane: a machine that reads what is printed, from the beginning, keeps step with that arc while it reads the lines printed for it, each of them a feed move (G1). The arc is the one that the input asks for at the place where the input reaches it: there is only one such helix (unless I and J name a centre on the line through both ends that is not the middle). Along each line, at each moment, the height differs from that of the helix by at most k*(eps + 0.0005), and the distance in the plane is at most --arc_precision (half of it for mid) plus twice that, where k is the number of arcs up to this one (2 if the arcs before are in absolute mode), and eps < 0.0005 is how far computed coordinates are from exact ones.",
  "all programs, arcs in them, text options and moments", "Errors of all earlier arcs, of printing, and of lines for cycles and other gcodes in between could add up or move the start of an arc.", [NO+":313-357", T+":20-215", T+":218-383", M+":485-518"])

p("Everywhere in a program, the lines printed for a drilling cycle drill as it asks",
  "For every program on which pygcode-norm --canned_expand finishes, and every expanded cycle of it: a machine that reads what is printed, from the beginning, is where the input is when the input reaches the cycle; at each further line printed for the cycle it makes one more move of a path, with the class (G0 or G1) and end of that move. The path drills as many holes as L asks for, one after the other, at the places that X and Y ask for, with the depths of the cycle (for example the pecks of G83) between R and Z; feed moves are made only in the holes. Its rapid moves never enter material that has not been removed, whatever material there is below the retract level, if the start is above it and not below the bottom of the holes.",
  "all programs, cycles in them, text options and shapes of material", "The path depends on everything before the cycle: position, distance mode, units of earlier lines, earlier expansions; and the printed text could be read as other moves than the ones that were made.", [NO+":339-357", T+":386-485", M+":485-518", G+":520-606"])

p("Expanded cycles visit the space of the input and the levels they drill at, and no more",
  "For every program on which pygcode-norm --canned_expand finishes: a machine that reads what is printed records along X and Y exactly the range of positions that a machine reading the input records. Along Z its range is the one of the input, extended to the levels of the expanded cycles: the retract level, the bottom of the holes and, for G73, the heights to which chips are broken; and no further. Chips are broken above the retract level if the increment Q is less than 0.5: an input that stays at Z1 or below is expanded to lines that reach Z1.3.",
  "all programs, cycles in them, text options and machines that have read something before", "The recorded range is compared with the size of the machine or the stock; it depends on every line of the program and on every peck of every cycle.", [NO+":339-357", T+":386-485", M+":541-546"])

p("What is printed for arcs lets a machine record the space the tool takes",
  "For every program on which pygcode-norm --arc_linearize finishes: the range of positions recorded by a machine that reads what is printed has every point of every arc in it (the whole helix that the arc asks for), up to what the method allows and twice the error of a coordinate for this arc and each arc before it; and every place where the input is at the end of a line, up to the error of a coordinate for each arc before. It has no more in it: if some bounds hold for the range recorded by reading the input, for the arcs (all of them in the XY plane and to another point), and for the levels at which expanded cycles drill, they hold for the range recorded by reading what is printed, up to the precision and twice the error of a coordinate for each arc. This does not hold for reading the input itself: of an arc it records the ends only, so for a half circle from X-1 to X1 through Y1 the recorded range ends at Y0.",
  "all programs, arcs in them, text options and machines that have read something before", "The whole program before the arc and every point of the arc matter; the range is used for the height of moves that have to be safe.", [NO+":323-337", T+":268-383", M+":387-390", M+":529-546", G+":403-404"])

p("The level that moves travel at is above arcs about that axis, and only those",
  "On an arc (any plane, any radius or centre, with or without a climb, up to a full turn) the tool is never higher or lower along the normal of the plane than the range that the machine records. Hence the first moves printed by pygcode-crop travel no lower than any point of a removed arc that turns about the axis moved along, and the default safe height of pygcode-norm --zero_xy is no lower than any point of an arc in the XY plane. Of arcs about another axis this is false: after a half turn in the plane ZX that goes over Z1, both scripts travel at Z0.",
  "all files, crop points, arcs in the removed lines or the program, and points of the arcs", "A move at a level that is too low hits the workpiece; tests have no arcs in the planes ZX and YZ at all, and all points of an arc matter.", [CR+":205-235", NO+":366-378", M+":387-390", M+":529-546", G+":420-470"])

p("An arc whose I, J, K do not quite fit is drawn about a centre close to the one named",
  "When the named centre of an arc is not equally far from both ends, linearize_arc takes the nearest place whose distance from both ends is the mean of those of the named centre: its distance from the named centre is at most √2 times that of any other place equally far from both ends, and at most √2 · |r1 - r2| · (r1 + r2) / 2 / |span|, where r1 and r2 are the distances of the named centre from the ends; the radius used differs from each by |r1 - r2| / 2. Hence all lines returned (XY plane, G90) keep the distance (r1 + r2) / 2 from the named centre, up to this and what the method allows.",
  "all arcs without R whose ends differ, in any plane (the lines: XY plane), all methods and precisions", "A statement about the geometry of all arcs; a test compares a few points, for centres that fit.", [T+":279-322"])

with open('/verif/properties.jsonl','w') as f:
    for x in P: f.write(json.dumps(x)+"\n")
print(len(P))
