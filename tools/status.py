# Manifest status (default: proved) and notes per property.
STATUS = {
 'C05': 'partial',
 'C14': 'partial',
 'C27': 'partial',
 'C29': 'partial',
 'C41': 'partial',
 'C43': 'partial',
 'C51': 'partial',
 'C53': 'partial',
 'C58': 'partial',
 'C59': 'partial',
 'C64': 'partial',
 'C66': 'partial',
 'C67': 'partial',
 'C73': 'partial',
 'C74': 'partial',
 'C78': 'partial', 'C81': 'partial',
 'C68': 'partial', 'C82': 'partial', 'C83': 'partial', 'C86': 'partial', 'C91': 'partial', 'C92': 'partial', 'C93': 'partial', 'C112': 'partial', 'C111': 'partial', 'C107': 'partial', 'C106': 'partial',
}
NOTE = {
 'C01': 'Exact grammar (longest match) for every text; errors are exactly GCodeWordStrError.',
 'C02': 'All printable values, unbounded; exact rational arithmetic instead of binary64.',
 'C03': 'Induction over the word list; arbitrary blank separators except newline.',
 'C04': 'Bound for every rational below the exponent-notation threshold 999999.4995.',
 'C05': 'The code violates this for |v| >= 999999.4995 (C05_refuted, C05_unreadable); C05_readback_iff gives the exact range in which it holds.',
 'C06': 'Includes texts with program names (their text may differ in case).',
 'C07': 'Total order over all well-formed words.',
 'C08': 'All words and texts, including the AttributeError on blank text.',
 'C10': 'Newline-free text; the block is exactly the right-stripped prefix.',
 'C11': 'Exact relation Bracketed, total and unique.',
 'C12': 'With and without macro, and the newline error.',
 'C14': 'Violated by the code (C14_refuted and three witnesses: % or ; inside brackets, both comment kinds on one line); the partial theorems give the harmless contents; C14_percent_read, C14_plain_read and C14_part say for every line without a line break which part of it is read.',
 'C15': 'For every word value; table facts are checked over the whole finite class table and lifted.',
 'C16': 'Permutation and order (sublists).',
 'C17': 'Declarative rule on positions, existence and uniqueness, and the result in terms of it.',
 'C18': 'Error exactly on repeated letters, always GCodeParameterError.',
 'C09': 'Last word for words2dict, first word for block.<letter>, unknown letters.',
 'C13': 'For every accepted line of plain words; the excluded cases have witnesses (C13_comment_grows, C13_names_excluded).',
 'C19': 'Exact condition, for every text; other errors pass through.',
 'C20': 'Word level for every word list (C20_words), text level for blocks of plain words (C20_meaning); witnesses for the condition.',
 'C21': 'Word level for every word list (C21_words), text level with left-over words (C21_exec_order); relies on a whole-table fact about exec_order.',
 'C22': 'Including the typed conversion and refusals.',
 'C23': 'For every gcode the constructor can make.',
 'C24': 'Equality is letter-wise; equivalence; permutation invariance.',
 'C25': 'Split around the first instance, for the stable sort (unique) or the list itself.',
 'C26': 'All positions and scalars over exact rationals; error conditions exact.',
 'C27': 'Violated by the code: assigning unit bypasses the converting setter (C27_refuted); the setter body itself is lossless (C27_setter_partial) and == is characterised exactly (C27_eq_iff). Sums and differences are those of lengths when the units agree (C27_sum_partial), not otherwise (C27_sum_refuted).',
 'C28': 'For a single axis, update() and the constructor.',
 'C29': 'Violated across units (C29_units_refuted); holds for equal units (C29_extremes_partial).',
 'C30': 'For every well-formed machine whose coordinate system exists.',
 'C31': 'All motion gcodes, parameters and offsets; also idempotence.',
 'C32': 'Induction over the sequence of moves.',
 'C33': 'Induction over arbitrary call histories (gcode, gcodes, text, set_mode, move_to, pos assignment), including failing ones.',
 'C34': 'Every class that is not a motion or canned cycle, including G80 and dwell.',
 'C42': 'One step, and as an invariant over call histories.',
 'C45': 'Closed form of the end position for every loop count; G99 without R raises TypeError without moving.',
 'C35': 'Invariant over arbitrary call histories, including failing calls and direct assignment to slots.',
 'C36': 'Exact content of every slot, for Mode.set_mode, Machine.set_mode and assignment.',
 'C37': 'Plain and retained-parameter modes; witness for repeated letters.',
 'C38': 'Equality of the whole resulting machine and of the exception, with any left-over words; witness for conflicting blocks.',
 'C39': 'Refusal leaves the machine unchanged; otherwise the exact failing prefix, with the exact condition under which a move fails.',
 'C43': 'Violated by the code (C43_refuted); proved for all histories: unit words change nothing but the recorded mode.',
 'C44': 'Exact list left, gcodes untouched, idempotent.',
 'C48': 'Streams of G0/G1 moves of any length, for every set of axes; other motion gcodes raise NotImplementedError (C48_unsupported). Rounding to the printed precision is not applied here.',
 'C49': 'All drilling and boring cycles; disagreement for incremental G99 with several holes (C49_g99_incremental), for L0 (C49_L0), and for U, V, W coordinates (example).',
 'C50': 'Every hole of every successful expansion, absolute and incremental, as executed by a machine.',
 'C51': 'Violated by the code for G83/G73 with Q0 (C51_never_refuted, C51_refuted); C51_terminates_partial covers every other case.',
 'C52': 'Safety of the executed path with respect to a model of the removed material; C52_plunge shows the excluded case is really unsafe.',
 'C53': 'Violated by the code (C53_refuted: G82 raises NameError after drilling, C53_dwell); C53_success_partial is the exact success condition.',
 'C47': 'Streams of any length; states compared after every line, for every machine of the reachable kind; canned cycles are excluded with a witness (C47_canned_differs).',
 'C46': 'Motion slot after the block, and refusal afterwards; witness for left-over words.',
 'C40': 'Slot by slot, also when executed by an arbitrary machine; whole-table fact that only G96 takes a later word; witnesses for G96 and for an active canned cycle.',
 'C41': 'Violated by the code (C41_refuted, C41_system9_refuted); exact condition for equal work positions, and indistinguishability over all programs without G59.3 when no offsets are set (C41_equivalent_partial).',
 'C54': 'Every plane, method and error; C54_machine: the same point a machine in absolute mode reaches by executing the arc.',
 'C55': 'Chain from the exact start, number of lines least possible for the allowed wedge.',
 'C56': 'All planes; also: a consistent I, J, K centre is used as given. Real arithmetic, no float rounding.',
 'C57': 'Every point of every segment, all three methods; path-level statement for the XY plane (C57_path), any plane under the condition that the angle is right (C57_error), witness for the YZ plane.',
 'C58': 'Violated by the code in the ZX and YZ planes (C58_zx_refuted: right only for multiples of a quarter turn, C58_yz_refuted: of half a turn); XY plane: C58_xy_partial, C58_half_partial.',
 'C59': 'Violated by the code for every full circle, plane, method and error (C59_refuted gives the exact outcome).',
 'C60': 'Any number of segments; increments are multiples of the last place; end point within half a unit.',
 'C61': 'Increasing fractions of the sweep; height and direction both at that fraction.',
 'C62': 'Exact acceptance condition for parameters, geometry and (XY plane) the whole call.',
 'C63': 'Any conditions (C63_selected; C63_crop from the parsed range), ranges with an open end (C63_open), what each condition means, which range texts are accepted, line-number ranges, and the errors that stop the output early (C63_stops).',
 'C64': 'Violated by the code in G91 mode (C64_incremental_refuted) and for the motion mode (C64_motion_refuted); everything else: C64_position_partial, for every file that executes and every reading machine without offsets.',
 'C65': 'Every position visited by the removed lines, as executed by any machine without offsets that reads the preamble.',
 'C66': 'Violated by the code in three corners: --singles without --full (C66_singles_refuted), --full when a left-over word belongs to the previous motion gcode (C66_full_refuted), and words in front of the gcode that accepts them (C66_plain_refuted). C66_same_partial: all programs outside these corners, every choice of the text options, with or without --full / --singles; C66_idempotent: normalizing twice is normalizing once. Options --rm_gcodes, --rm_invalid_modal and the expansions are off in these theorems.',
 'C67': 'Violated by the code in G99 mode (C67_g99_refuted) and for L0 (C67_zero_refuted), and the motion mode may differ afterwards (C67_motion_refuted). C67_same_partial: for every program on which the script finishes, with every cycle reached with a plane selected, outside G99, at least one repetition and no coordinate of a U, V or W axis of the machine (the machine of the script has none), and words that print exactly, the printed lines are accepted and lead to the same position, offsets and non-motion modes as the input; all text options, with or without --full / --singles. --rm_gcodes is off; C89_expand is the same with --rm_invalid_modal.',
 'C68': 'Violated by the code (C68_refuted); C68_always: any sequence of calls leaves the default unchanged, C68_expected_iff: exactly which histories behave as expected, C68_with_global: a global declaration would suffice.',
 'C69': 'C69_finish: what every line does, for any reading machine in the same state up to the motion mode; C69_height: the safe height; C69_run: end of the whole output; C69_none and C69_comment: nothing is added without one of the options, with one a comment comes first. Witnesses: --rm_gcodes removes the added lines too (C69_removed_refuted), lines after M30 (C69_after_end_refuted).',
 'C70': 'Independent description of a text by its chunks; every text has one (chunks_exist).',
 'C71': 'Binary64 modelled exactly (nearest double, ties to even, signed zero; nearest_closest and nearest_isDouble show that the model rounds correctly); no overflow.',
 'C72': 'Incremental moves of any machine with any offsets; five float operations per move as in move_to, abs2work and work2abs.',
 'C73': 'C73_count_partial and C73_absolute_partial are proved for every program on which the script finishes and whose replaced lines have plainly printing words, for axes X, Y, Z, coordinates up to 999, without --rm_gcodes (with --rm_invalid_modal the same holds of the file without the invalid words, by C89). The computed coordinates are any function whose values are within eps of the exact vertices; for arcs in incremental mode, where the program rounds while computing, this means that its rounding decisions are those of exact arithmetic. C73_path, the distance from the arc, is for the XY plane: the other planes are linearized wrongly (C58). Drilling cycles have the restrictions of C67.',
 'C74': 'C74_meaning, C74_direction and C74_empty are complete; the expectation on capital letters is refuted (C74_capital_refuted) and C74_capital says for all values whether they are taken, reported or raise KeyError. C74_break_refuted: a line break at the end is accepted.',
 'C75': 'For machines whose active motion mode is a gcode named by its word, with ignore_invalid_modal off (with it on, invalid parameters are skipped and the length is one more).',
 'C76': 'Parameters in the order they are given; C76_text for values that print exactly.',
 'C77': 'C77_full, C77_plain: all programs that execute and whose kept gcodes meet the conditions of C66; no expansions, --rm_invalid_modal off. C77_unlisted needs no conditions on the words. C77_modal_limit shows the documented limit.',
 'C78': 'C78_same: every program on which the script finishes; C78_valid: programs without invalid words or repeated letters. The expectation that programs processed without the option are processed with it is refuted (C78_repeat_refuted).',
 'C79': 'Independent grammar (Pieces, WordOf). Simplification: numbers with +, exponent, underscores, inf or nan, which Python accepts in float(), are errors in the model.',
 'C80': 'Conditions of C67 on the program (words that print exactly, cycles that can be expanded). C80_second_left: two cycles on a line.',
 'C81': 'C81_values_partial, C81_errors_partial: no modal parameter is assigned. With one the claim is refuted (C81_refuted, C81_shared_assign).',
 'C82': 'C82_lines_partial: programs as in C66, without expansions and removals of gcodes; C82_expanded, C82_replaced: the same form for programs with expanded cycles (as in C67) and linearized arcs (as in C73); C82_no_blank: every program and all options. That macros are kept is refuted for --singles and for expanded lines (C82_macro_refuted).',
 'C83': 'C83_path_partial is for the XY plane in absolute mode, C83_incremental in incremental mode, where the rounding of one increment (half a unit of the last place on both axes) adds to the distance; C83_follow is for all planes where the computed angle takes the start to the end. In the ZX and YZ planes the angles are wrong (C58) and the claim is false (C83_yz_refuted). Heights are the subject of C61.',
 'C84': 'C84_text and C84_machine are equivalences, for every text and every exception; C84_kinds lists the exceptions.',
 'C85': 'Texts that raise exceptions are included; execution goes on with the next text.',
 'C86': 'Proved for blanks around letters (T directly before its value), case and comments. Blanks inside a number (C86_refuted) and between T and its value (C86_tool_refuted) do change the meaning.',
 'C87': 'All machines that are in step with their mode (C42: every new machine and whatever it does). A copied machine is not (C41), and C87_copy_refuted shows a line number alone changing what it does.',
 'C88': 'whole run, expansion included; with arc linearization it is C101',
 'C89': "C89_first, C89_script: all options; the only condition besides a finished run is that the computed arc coordinates do not depend on the machine's ignore flag. C89_exists: the file without the words exists.",
 'C90': 'C90_pieces (one list of pieces for all option sets with the same task), C90_end, C90_blanks, C90_gcodes, C90_comments, C90_whitespace (a line without comment and macro loses exactly its blanks), C90_count.',
 'C91': 'C91_group_partial and C91_block_partial: every word and block but G80 (C91_cancel_refuted). C91_order, C91_executed, C91_params: in full. C91_missing: exactly which words of the tables are not read. C91_coolant_refuted: M7 M8 on one line is refused, and on two lines only the second is kept.',
 'C92': 'Code disagrees with what the commands are for: C92_offset_refuted, C92_absolute_refuted, C92_home_refuted. Proved: what the code does instead. Idle gcodes with parameters (G4, G10, M6, M61, M50-M53, M62-M68) are covered gcode by gcode by C87_idle.',
 'C93': 'Limits: the conditions in the statement, which come from the code (C64_incremental_refuted, C64_motion_refuted, C93_motion_refuted). C93_crop: line by line, from the parsed range; C93_lines: for any first printed line.',
 'C94': 'C94_scaled for machines in general, C94_size, C94_units and C94_mirror on a new machine without a mode. R words are scaled by one factor, so the normal axes of all planes that the program selects need this factor: for a mirror image in X that excludes G19.',
 'C95': 'Programs with O words are left out (such a word takes the rest of the line). As in C13, a line with a macro must not have a semicolon comment with text.',
 'C96': 'C96_cut has no condition on the cut. C96_machine: cuts in absolute distance mode, outside canned cycles, with printable values (from C64, C93, where the code fails otherwise).',
 'C97': 'Proved for --full without --canned_expand, --rm_gcodes and --rm_invalid_modal. The conditions on the original lines are those of C66 (LinesTidy).',
 'C98': 'Lengths: C98_path through linearize_arc in the XY plane (absolute distance mode, before rounding to words); C98_length in any plane when the computed angle takes the start to the end, which in ZX and YZ fails for most arcs (C58).',
 'C99': 'C99_displaced, C99_reversed. In exact real arithmetic. C99_outside shows that the restriction of the reversal on the named centre is exact: when the centre is on the line through both ends outside them, the two corrected centres are equally near, the one on the right of the span is taken, and the arc that runs back is drawn around the other one (G2 X2 I3 from the origin, and G3 X0 I1 back).',
 'C100': 'C100_fold, C100_ascii, C100_key, C100_separator, C100_clean.',
 'C101': 'C101_arc, C101_loop and C101_run are full equivalences; C101_refuted shows that being executable is not enough. Which arcs finish is decided in exact arithmetic (real numbers); with floats a case on the border may come out differently.',
 'C102': "Texts are decoded: a file that is not valid in the locale's encoding is out of scope. The result for arcs is for any computed vertices.",
 'C103': '`C103_refuted` starts with G55 and has a machine whose mode is G55 and whose state is in coordinate system 1 until the next gcode is processed (Machine.__init__ does not set the state from the mode). `C103_start` says exactly when this happens.',
 'C104': 'For the pieces the mode must print exactly (values with at most 3 decimals, no spindle speed together with G96), as for C40.',
 'C105': 'Proved over real arithmetic. The mirrored form asks for a centre that is not on the line through start and end outside them: for such centres two corrected centres are equally near, and the tie goes to the one on the right of the span, which mirroring does not preserve (C105_outside; G2 X2 I3 and G3 X2 I3 from the origin). The similar form asks for start and end to differ in the plane; equal ones are C58.',
 'C106': 'Partial because of the code: for opposite directions quat2align returns the zero quaternion, which takes every vector to zero (`C106_opposite`), and so does quat2coord_system where a rotation exists (`C106_refuted`: X, Y to X, -Y). Over real arithmetic; zero vectors, for which euclid3 divides by zero, are excluded by the hypotheses.',
 'C107': 'Partial because of the code: the words M101-M199 of the description of GCodeUserDefined are found as no class (`C107_user_refuted`), and the nine coordinate systems have no word in their descriptions. The descriptions, names and the text of __init__.py are copied from the source by tools/mkclasses.py.',
 'C108': "The hierarchies have single inheritance, `word_key` and `word_matches` of a class are those Python's attribute lookup gives (inherited ones included), and tests raise no exception.",
 'C109': 'Conditions of C67 and C80 on the program.',
 'C110': 'Conditions of C73 on the program and on floating-point results.',
 'C111': 'The rules are proved in full. The expectation about the lists is refuted: a repeated gcode without modal group (G4 P1 N5 G4 P2) makes the message list all gcodes without modal group, the line number included (C111_conflict_refuted); and of several left-over words with one letter only the last is listed, e.g. G70 G71 names G71 (C111_modal_refuted).',
 'C112': "C112_refused, C112_failed and C112_place are proved in full; the expectation that a failing line changes nothing is refuted (C112_refuted: the modes set by 'G91 G81 X1' stay although no plane is selected, and the move of 'G0 X7 R2' before a failing cycle is made).",
 'C113': 'C113_path is in the XY plane, in absolute distance mode and before rounding to words; C113_step holds in any plane when the computed angle takes the start to the end, which in ZX and YZ fails for most arcs (C58).',
 'C114': 'Strengthens C73_path (distance from the circle) for one arc. The computed coordinates are any function whose values are within eps of the exact ones, as in C73. The other planes are linearized wrongly (C58).',
 'C115': 'Larger numbers are shown with six significant digits only, and with an exponent from 999999.5 on (C04).',
 'C116': 'Conditions on the program as in C73_count_partial: replaced lines have plainly printing words, axes X, Y, Z, coordinates up to 999, drilling cycles as in C67, options --rm_gcodes and --rm_invalid_modal off. The other planes are linearized wrongly (C58).',
 'C117': 'Conditions on the program as in C67_same_partial: XY plane, axes X, Y, Z, plainly printing words, the options --rm_gcodes and --rm_invalid_modal off.',
 'C118': 'Conditions on the program as in C67_same_partial. C118_range is about every such program; C118_chip_refuted is the witness for chips broken above the retract level.',
 'C119': 'Conditions as in C116 (XY plane, ends that differ). C119_arc: the arcs; C119_ends: the ends of the lines; C119_within: no more than that (the bounds have to hold for every helix that AsksFor allows, which is one unless the named centre is on the line through both ends outside them, C116_unique); C119_bulge_refuted: the witness for reading arcs themselves.',
 'C120': 'C120_arc: one arc, any machine; C120_crop: the moves of pygcode-crop (conditions as in C65); C120_safe: the safe height of pygcode-norm; C120_bulge_refuted, C120_safe_refuted: arcs about another axis.',
 'C121': 'C121_mean, C121_centre: the centre and radius, in all planes; C121_lines: the lines in the XY plane. If the centre fits it is used itself (C56_given).',
}
