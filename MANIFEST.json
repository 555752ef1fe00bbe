{
 "claims": [
  {
   "property": "C01",
   "status": "proved",
   "theorems": [
    "Pygcode.C01_blanks",
    "Pygcode.Props.C01_ok_iff",
    "Pygcode.Props.C01_error_iff",
    "Pygcode.Props.C01_unambiguous"
   ],
   "note": "Exact grammar (longest match) for every text; errors are exactly GCodeWordStrError."
  },
  {
   "property": "C02",
   "status": "proved",
   "theorems": [
    "Pygcode.C02_code_text",
    "Pygcode.Props.C02_roundtrip",
    "Pygcode.Props.C02_str2word"
   ],
   "note": "All printable values, unbounded; exact rational arithmetic instead of binary64."
  },
  {
   "property": "C03",
   "status": "proved",
   "theorems": [
    "Pygcode.Props.C03_spaced",
    "Pygcode.Props.C03_remove_whitespace",
    "Pygcode.Props.C03_filter_blanks"
   ],
   "note": "Induction over the word list; arbitrary blank separators except newline."
  },
  {
   "property": "C04",
   "status": "proved",
   "theorems": [
    "Pygcode.C04_nearest",
    "Pygcode.Props.C04_error_bound",
    "Pygcode.Props.C04_error_small"
   ],
   "note": "Bound for every rational below the exponent-notation threshold 999999.4995."
  },
  {
   "property": "C05",
   "status": "partial",
   "theorems": [
    "Pygcode.C05_exponent",
    "Pygcode.C05_tiny_code_refuted",
    "Pygcode.Props.C05_readback_partial",
    "Pygcode.Props.C05_unreadable",
    "Pygcode.Props.C05_readback_iff",
    "Pygcode.Props.C05_refuted"
   ],
   "note": "The code violates this for |v| >= 999999.4995 (C05_refuted, C05_unreadable); C05_readback_iff gives the exact range in which it holds."
  },
  {
   "property": "C06",
   "status": "proved",
   "theorems": [
    "Pygcode.Props.C06_case",
    "Pygcode.Props.C06_case_names"
   ],
   "note": "Includes texts with program names (their text may differ in case)."
  },
  {
   "property": "C07",
   "status": "proved",
   "theorems": [
    "Pygcode.Props.C07_irrefl",
    "Pygcode.Props.C07_trans",
    "Pygcode.Props.C07_total",
    "Pygcode.Props.C07_consistent",
    "Pygcode.Props.C07_asymm"
   ],
   "note": "Total order over all well-formed words."
  },
  {
   "property": "C08",
   "status": "proved",
   "theorems": [
    "Pygcode.Props.C08_eq_iff",
    "Pygcode.Props.C08_other"
   ],
   "note": "All words and texts, including the AttributeError on blank text."
  },
  {
   "property": "C09",
   "status": "proved",
   "theorems": [
    "Pygcode.Props.C09_block_letter",
    "Pygcode.Props.C09_words2dict"
   ],
   "note": "Last word for words2dict, first word for block.<letter>, unknown letters."
  },
  {
   "property": "C10",
   "status": "proved",
   "theorems": [
    "Pygcode.Props.C10_semicolon",
    "Pygcode.Props.C10_block_independent"
   ],
   "note": "Newline-free text; the block is exactly the right-stripped prefix."
  },
  {
   "property": "C11",
   "status": "proved",
   "theorems": [
    "Pygcode.Props.C11_brackets",
    "Pygcode.Props.C11_total"
   ],
   "note": "Exact relation Bracketed, total and unique."
  },
  {
   "property": "C12",
   "status": "proved",
   "theorems": [
    "Pygcode.Props.C12_macro",
    "Pygcode.Props.C12_plain",
    "Pygcode.Props.C12_newline",
    "Pygcode.Props.C12_split"
   ],
   "note": "With and without macro, and the newline error."
  },
  {
   "property": "C13",
   "status": "proved",
   "theorems": [
    "Pygcode.Props.C13_stable",
    "Pygcode.Props.C13_comment_grows",
    "Pygcode.Props.C13_names_excluded"
   ],
   "note": "For every accepted line of plain words; the excluded cases have witnesses (C13_comment_grows, C13_names_excluded)."
  },
  {
   "property": "C14",
   "status": "partial",
   "theorems": [
    "Pygcode.Props.C14_percent_witness",
    "Pygcode.Props.C14_semicolon_witness",
    "Pygcode.Props.C14_mixed_witness",
    "Pygcode.Props.C14_refuted",
    "Pygcode.Props.C14_brackets_partial",
    "Pygcode.Props.C14_semicolon_partial",
    "Pygcode.Props.C14_percent_read",
    "Pygcode.Props.C14_plain_read",
    "Pygcode.Props.C14_part"
   ],
   "note": "Violated by the code (C14_refuted and three witnesses: % or ; inside brackets, both comment kinds on one line); the partial theorems give the harmless contents; C14_percent_read, C14_plain_read and C14_part say for every line without a line break which part of it is read."
  },
  {
   "property": "C15",
   "status": "proved",
   "theorems": [
    "Pygcode.Props.C15_unique",
    "Pygcode.Props.C15_build",
    "Pygcode.Props.C15_lookup",
    "Pygcode.Props.C15_order",
    "Pygcode.Props.C15_found"
   ],
   "note": "For every word value; table facts are checked over the whole finite class table and lifted."
  },
  {
   "property": "C16",
   "status": "proved",
   "theorems": [
    "Pygcode.Props.C16_conserved",
    "Pygcode.Props.C16_order"
   ],
   "note": "Permutation and order (sublists)."
  },
  {
   "property": "C17",
   "status": "proved",
   "theorems": [
    "Pygcode.Props.C17_rule",
    "Pygcode.Props.C17_result"
   ],
   "note": "Declarative rule on positions, existence and uniqueness, and the result in terms of it."
  },
  {
   "property": "C18",
   "status": "proved",
   "theorems": [
    "Pygcode.Props.C18_error_iff",
    "Pygcode.Props.C18_params"
   ],
   "note": "Error exactly on repeated letters, always GCodeParameterError."
  },
  {
   "property": "C19",
   "status": "proved",
   "theorems": [
    "Pygcode.Props.C19_verify",
    "Pygcode.Props.C19_other_errors"
   ],
   "note": "Exact condition, for every text; other errors pass through."
  },
  {
   "property": "C20",
   "status": "proved",
   "theorems": [
    "Pygcode.Props.C20_meaning",
    "Pygcode.Props.C20_words",
    "Pygcode.Props.C20_condition_needed",
    "Pygcode.Props.C20_names_excluded"
   ],
   "note": "Word level for every word list (C20_words), text level for blocks of plain words (C20_meaning); witnesses for the condition."
  },
  {
   "property": "C21",
   "status": "proved",
   "theorems": [
    "Pygcode.Props.C21_exec_order",
    "Pygcode.Props.C21_words",
    "Pygcode.Props.C21_order_matters"
   ],
   "note": "Word level for every word list (C21_words), text level with left-over words (C21_exec_order); relies on a whole-table fact about exec_order."
  },
  {
   "property": "C22",
   "status": "proved",
   "theorems": [
    "Pygcode.Props.C22_set",
    "Pygcode.Props.C22_readback",
    "Pygcode.Props.C22_add",
    "Pygcode.Props.C22_get",
    "Pygcode.Props.C22_param_dict"
   ],
   "note": "Including the typed conversion and refusals."
  },
  {
   "property": "C23",
   "status": "proved",
   "theorems": [
    "Pygcode.Props.C23_modal_copy",
    "Pygcode.Props.C23_idempotent"
   ],
   "note": "For every gcode the constructor can make."
  },
  {
   "property": "C24",
   "status": "proved",
   "theorems": [
    "Pygcode.Props.C24_eq_iff",
    "Pygcode.Props.C24_equivalence",
    "Pygcode.Props.C24_permute"
   ],
   "note": "Equality is letter-wise; equivalence; permutation invariance."
  },
  {
   "property": "C25",
   "status": "proved",
   "theorems": [
    "Pygcode.Props.C25_split"
   ],
   "note": "Split around the first instance, for the stable sort (unique) or the list itself."
  },
  {
   "property": "C26",
   "status": "proved",
   "theorems": [
    "Pygcode.C26_add_sub",
    "Pygcode.C26_sub_add",
    "Pygcode.C26_comm",
    "Pygcode.C26_assoc",
    "Pygcode.C26_mul_div",
    "Pygcode.C26_mul_add",
    "Pygcode.C26_errors",
    "Pygcode.C26_sub_fewer_axes"
   ],
   "note": "All positions and scalars over exact rationals; error conditions exact."
  },
  {
   "property": "C27",
   "status": "partial",
   "theorems": [
    "Pygcode.C27_setter_partial",
    "Pygcode.C27_refuted",
    "Pygcode.C27_eq_iff",
    "Pygcode.C27_equality_partial",
    "Pygcode.C27_sum_partial",
    "Pygcode.C27_sum_refuted"
   ],
   "note": "Violated by the code: assigning unit bypasses the converting setter (C27_refuted); the setter body itself is lossless (C27_setter_partial) and == is characterised exactly (C27_eq_iff). Sums and differences are those of lengths when the units agree (C27_sum_partial), not otherwise (C27_sum_refuted)."
  },
  {
   "property": "C28",
   "status": "proved",
   "theorems": [
    "Pygcode.C28_set",
    "Pygcode.C28_update",
    "Pygcode.C28_make"
   ],
   "note": "For a single axis, update() and the constructor."
  },
  {
   "property": "C29",
   "status": "partial",
   "theorems": [
    "Pygcode.C29_extremes_partial",
    "Pygcode.C29_units_refuted"
   ],
   "note": "Violated across units (C29_units_refuted); holds for equal units (C29_extremes_partial)."
  },
  {
   "property": "C30",
   "status": "proved",
   "theorems": [
    "Pygcode.C30_readback",
    "Pygcode.C30_inverse"
   ],
   "note": "For every well-formed machine whose coordinate system exists."
  },
  {
   "property": "C31",
   "status": "proved",
   "theorems": [
    "Pygcode.C31_absolute"
   ],
   "note": "All motion gcodes, parameters and offsets; also idempotence."
  },
  {
   "property": "C32",
   "status": "proved",
   "theorems": [
    "Pygcode.C32_sum",
    "Pygcode.C32_order",
    "Pygcode.C32_zero"
   ],
   "note": "Induction over the sequence of moves."
  },
  {
   "property": "C33",
   "status": "proved",
   "theorems": [
    "Pygcode.C33_box",
    "Pygcode.C33_monotone"
   ],
   "note": "Induction over arbitrary call histories (gcode, gcodes, text, set_mode, move_to, pos assignment), including failing ones."
  },
  {
   "property": "C34",
   "status": "proved",
   "theorems": [
    "Pygcode.C34_only_motion",
    "Pygcode.C34_dwell_cancel"
   ],
   "note": "Every class that is not a motion or canned cycle, including G80 and dwell."
  },
  {
   "property": "C35",
   "status": "proved",
   "theorems": [
    "Pygcode.C35_history",
    "Pygcode.C35_named",
    "Pygcode.C35_new",
    "Pygcode.C35_assign"
   ],
   "note": "Invariant over arbitrary call histories, including failing calls and direct assignment to slots."
  },
  {
   "property": "C36",
   "status": "proved",
   "theorems": [
    "Pygcode.C36_set_mode",
    "Pygcode.C36_machine",
    "Pygcode.C36_assign"
   ],
   "note": "Exact content of every slot, for Mode.set_mode, Machine.set_mode and assignment."
  },
  {
   "property": "C37",
   "status": "proved",
   "theorems": [
    "Pygcode.C37_modal",
    "Pygcode.C37_explicit",
    "Pygcode.C37_plain"
   ],
   "note": "Plain and retained-parameter modes; witness for repeated letters."
  },
  {
   "property": "C38",
   "status": "proved",
   "theorems": [
    "Pygcode.C38_order"
   ],
   "note": "Equality of the whole resulting machine and of the exception, with any left-over words; witness for conflicting blocks."
  },
  {
   "property": "C39",
   "status": "proved",
   "theorems": [
    "Pygcode.C39_refused",
    "Pygcode.C39_prefix"
   ],
   "note": "Refusal leaves the machine unchanged; otherwise the exact failing prefix, with the exact condition under which a move fails."
  },
  {
   "property": "C40",
   "status": "proved",
   "theorems": [
    "Pygcode.C40_reproduced",
    "Pygcode.C40_executed",
    "Pygcode.C40_g96",
    "Pygcode.C40_reachable"
   ],
   "note": "Slot by slot, also when executed by an arbitrary machine; whole-table fact that only G96 takes a later word; witnesses for G96 and for an active canned cycle."
  },
  {
   "property": "C41",
   "status": "partial",
   "theorems": [
    "Pygcode.C41_copy_partial",
    "Pygcode.C41_refuted",
    "Pygcode.C41_system9_refuted",
    "Pygcode.C41_equivalent_partial"
   ],
   "note": "Violated by the code (C41_refuted, C41_system9_refuted); exact condition for equal work positions, and indistinguishability over all programs without G59.3 when no offsets are set (C41_equivalent_partial)."
  },
  {
   "property": "C42",
   "status": "proved",
   "theorems": [
    "Pygcode.C42_select",
    "Pygcode.C42_history",
    "Pygcode.C42_new"
   ],
   "note": "One step, and as an invariant over call histories."
  },
  {
   "property": "C43",
   "status": "partial",
   "theorems": [
    "Pygcode.C43_raw_partial",
    "Pygcode.C43_unit_gcode_partial",
    "Pygcode.C43_refuted"
   ],
   "note": "Violated by the code (C43_refuted); proved for all histories: unit words change nothing but the recorded mode."
  },
  {
   "property": "C44",
   "status": "proved",
   "theorems": [
    "Pygcode.C44_clean",
    "Pygcode.C44_idempotent"
   ],
   "note": "Exact list left, gcodes untouched, idempotent."
  },
  {
   "property": "C45",
   "status": "proved",
   "theorems": [
    "Pygcode.C45_normals",
    "Pygcode.C45_absolute",
    "Pygcode.C45_incremental",
    "Pygcode.C45_missing_R"
   ],
   "note": "Closed form of the end position for every loop count; G99 without R raises TypeError without moving."
  },
  {
   "property": "C46",
   "status": "proved",
   "theorems": [
    "Pygcode.C46_cancel",
    "Pygcode.C46_refused_after"
   ],
   "note": "Motion slot after the block, and refusal afterwards; witness for left-over words."
  },
  {
   "property": "C47",
   "status": "proved",
   "theorems": [
    "Pygcode.C47_same",
    "Pygcode.C47_canned_differs",
    "Pygcode.C47_aligned"
   ],
   "note": "Streams of any length; states compared after every line, for every machine of the reachable kind; canned cycles are excluded with a witness (C47_canned_differs)."
  },
  {
   "property": "C48",
   "status": "proved",
   "theorems": [
    "Pygcode.C48_trajectory",
    "Pygcode.C48_unsupported"
   ],
   "note": "Streams of G0/G1 moves of any length, for every set of axes; other motion gcodes raise NotImplementedError (C48_unsupported). Rounding to the printed precision is not applied here."
  },
  {
   "property": "C49",
   "status": "proved",
   "theorems": [
    "Pygcode.C49_same_end",
    "Pygcode.C49_g99_incremental",
    "Pygcode.C49_L0"
   ],
   "note": "All drilling and boring cycles; disagreement for incremental G99 with several holes (C49_g99_incremental), for L0 (C49_L0), and for U, V, W coordinates (example)."
  },
  {
   "property": "C50",
   "status": "proved",
   "theorems": [
    "Pygcode.C50_depths"
   ],
   "note": "Every hole of every successful expansion, absolute and incremental, as executed by a machine."
  },
  {
   "property": "C51",
   "status": "partial",
   "theorems": [
    "Pygcode.C51_terminates_partial",
    "Pygcode.C51_never_refuted",
    "Pygcode.C51_refuted"
   ],
   "note": "Violated by the code for G83/G73 with Q0 (C51_never_refuted, C51_refuted); C51_terminates_partial covers every other case."
  },
  {
   "property": "C52",
   "status": "proved",
   "theorems": [
    "Pygcode.C52_safe",
    "Pygcode.C52_plunge"
   ],
   "note": "Safety of the executed path with respect to a model of the removed material; C52_plunge shows the excluded case is really unsafe."
  },
  {
   "property": "C53",
   "status": "partial",
   "theorems": [
    "Pygcode.C53_success_partial",
    "Pygcode.C53_dwell",
    "Pygcode.C53_refuted"
   ],
   "note": "Violated by the code (C53_refuted: G82 raises NameError after drilling, C53_dwell); C53_success_partial is the exact success condition."
  },
  {
   "property": "C54",
   "status": "proved",
   "theorems": [
    "Pygcode.C54_end",
    "Pygcode.C54_machine"
   ],
   "note": "Every plane, method and error; C54_machine: the same point a machine in absolute mode reaches by executing the arc."
  },
  {
   "property": "C55",
   "status": "proved",
   "theorems": [
    "Pygcode.C55_chain"
   ],
   "note": "Chain from the exact start, number of lines least possible for the allowed wedge."
  },
  {
   "property": "C56",
   "status": "proved",
   "theorems": [
    "Pygcode.C56_center",
    "Pygcode.C56_radius",
    "Pygcode.C56_given"
   ],
   "note": "All planes; also: a consistent I, J, K centre is used as given. Real arithmetic, no float rounding."
  },
  {
   "property": "C57",
   "status": "proved",
   "theorems": [
    "Pygcode.C57_error",
    "Pygcode.C57_yz_refuted",
    "Pygcode.C57_path"
   ],
   "note": "Every point of every segment, all three methods; path-level statement for the XY plane (C57_path), any plane under the condition that the angle is right (C57_error), witness for the YZ plane."
  },
  {
   "property": "C58",
   "status": "partial",
   "theorems": [
    "Pygcode.C58_xy_partial",
    "Pygcode.C58_half_partial",
    "Pygcode.C58_zx_quarters",
    "Pygcode.C58_yz_halves",
    "Pygcode.C58_zx_refuted",
    "Pygcode.C58_yz_refuted"
   ],
   "note": "Violated by the code in the ZX and YZ planes (C58_zx_refuted: right only for multiples of a quarter turn, C58_yz_refuted: of half a turn); XY plane: C58_xy_partial, C58_half_partial."
  },
  {
   "property": "C59",
   "status": "partial",
   "theorems": [
    "Pygcode.C59_refuted"
   ],
   "note": "Violated by the code for every full circle, plane, method and error (C59_refuted gives the exact outcome)."
  },
  {
   "property": "C60",
   "status": "proved",
   "theorems": [
    "Pygcode.C60_no_drift",
    "Pygcode.C60_end",
    "Pygcode.C60_multiples"
   ],
   "note": "Any number of segments; increments are multiples of the last place; end point within half a unit."
  },
  {
   "property": "C61",
   "status": "proved",
   "theorems": [
    "Pygcode.C61_helix"
   ],
   "note": "Increasing fractions of the sweep; height and direction both at that fraction."
  },
  {
   "property": "C62",
   "status": "proved",
   "theorems": [
    "Pygcode.C62_params",
    "Pygcode.C62_method",
    "Pygcode.C62_error",
    "Pygcode.C62_reach",
    "Pygcode.C62_done"
   ],
   "note": "Exact acceptance condition for parameters, geometry and (XY plane) the whole call."
  },
  {
   "property": "C63",
   "status": "proved",
   "theorems": [
    "Pygcode.C63_selected",
    "Pygcode.C63_stops",
    "Pygcode.C63_all",
    "Pygcode.C63_holds",
    "Pygcode.C63_syntax",
    "Pygcode.C63_range",
    "Pygcode.C63_no_normal",
    "Pygcode.C63_numbers",
    "Pygcode.C63_no_line",
    "Pygcode.C63_crop",
    "Pygcode.C63_open"
   ],
   "note": "Any conditions (C63_selected; C63_crop from the parsed range), ranges with an open end (C63_open), what each condition means, which range texts are accepted, line-number ranges, and the errors that stop the output early (C63_stops)."
  },
  {
   "property": "C64",
   "status": "partial",
   "theorems": [
    "Pygcode.C64_position_partial",
    "Pygcode.C64_incremental_refuted",
    "Pygcode.C64_motion_refuted"
   ],
   "note": "Violated by the code in G91 mode (C64_incremental_refuted) and for the motion mode (C64_motion_refuted); everything else: C64_position_partial, for every file that executes and every reading machine without offsets."
  },
  {
   "property": "C65",
   "status": "proved",
   "theorems": [
    "Pygcode.C65_level"
   ],
   "note": "Every position visited by the removed lines, as executed by any machine without offsets that reads the preamble."
  },
  {
   "property": "C66",
   "status": "partial",
   "theorems": [
    "Pygcode.C66_same_partial",
    "Pygcode.C66_singles_refuted",
    "Pygcode.C66_full_refuted",
    "Pygcode.C66_plain_refuted",
    "Pygcode.C66_idempotent"
   ],
   "note": "Violated by the code in three corners: --singles without --full (C66_singles_refuted), --full when a left-over word belongs to the previous motion gcode (C66_full_refuted), and words in front of the gcode that accepts them (C66_plain_refuted). C66_same_partial: all programs outside these corners, every choice of the text options, with or without --full / --singles; C66_idempotent: normalizing twice is normalizing once. Options --rm_gcodes, --rm_invalid_modal and the expansions are off in these theorems."
  },
  {
   "property": "C67",
   "status": "partial",
   "theorems": [
    "Pygcode.C67_zero_refuted",
    "Pygcode.C67_same_partial",
    "Pygcode.C67_g99_refuted",
    "Pygcode.C67_motion_refuted"
   ],
   "note": "Violated by the code in G99 mode (C67_g99_refuted) and for L0 (C67_zero_refuted), and the motion mode may differ afterwards (C67_motion_refuted). C67_same_partial: for every program on which the script finishes, with every cycle reached with a plane selected, outside G99, at least one repetition and no coordinate of a U, V or W axis of the machine (the machine of the script has none), and words that print exactly, the printed lines are accepted and lead to the same position, offsets and non-motion modes as the input; all text options, with or without --full / --singles. --rm_gcodes is off; C89_expand is the same with --rm_invalid_modal."
  },
  {
   "property": "C68",
   "status": "partial",
   "theorems": [
    "Pygcode.Props.C68_always",
    "Pygcode.Props.C68_expected_iff",
    "Pygcode.Props.C68_refuted",
    "Pygcode.Props.C68_with_global"
   ],
   "note": "Violated by the code (C68_refuted); C68_always: any sequence of calls leaves the default unchanged, C68_expected_iff: exactly which histories behave as expected, C68_with_global: a global declaration would suffice."
  },
  {
   "property": "C69",
   "status": "proved",
   "theorems": [
    "Pygcode.C69_finish",
    "Pygcode.C69_height",
    "Pygcode.C69_run",
    "Pygcode.C69_none",
    "Pygcode.C69_comment",
    "Pygcode.C69_removed_refuted",
    "Pygcode.C69_after_end_refuted"
   ],
   "note": "C69_finish: what every line does, for any reading machine in the same state up to the motion mode; C69_height: the safe height; C69_run: end of the whole output; C69_none and C69_comment: nothing is added without one of the options, with one a comment comes first. Witnesses: --rm_gcodes removes the added lines too (C69_removed_refuted), lines after M30 (C69_after_end_refuted)."
  },
  {
   "property": "C70",
   "status": "proved",
   "theorems": [
    "Pygcode.C70_chunks",
    "Pygcode.C70_same_block",
    "Pygcode.C70_idempotent",
    "Pygcode.C70_characters"
   ],
   "note": "Independent description of a text by its chunks; every text has one (chunks_exist)."
  },
  {
   "property": "C71",
   "status": "proved",
   "theorems": [
    "Pygcode.Props.C71_absorbed",
    "Pygcode.Props.C71_read_print",
    "Pygcode.Props.C71_stable",
    "Pygcode.Props.C71_codes",
    "Pygcode.Props.C71_compare"
   ],
   "note": "Binary64 modelled exactly (nearest double, ties to even, signed zero; nearest_closest and nearest_isDouble show that the model rounds correctly); no overflow."
  },
  {
   "property": "C72",
   "status": "proved",
   "theorems": [
    "Pygcode.Props.C72_drift",
    "Pygcode.Props.C72_machine",
    "Pygcode.Props.C72_printed",
    "Pygcode.Props.C72_still"
   ],
   "note": "Incremental moves of any machine with any offsets; five float operations per move as in move_to, abs2work and work2abs."
  },
  {
   "property": "C73",
   "status": "partial",
   "theorems": [
    "Pygcode.C73_count_partial",
    "Pygcode.C73_absolute_partial",
    "Pygcode.C73_off",
    "Pygcode.C73_path"
   ],
   "note": "C73_count_partial and C73_absolute_partial are proved for every program on which the script finishes and whose replaced lines have plainly printing words, for axes X, Y, Z, coordinates up to 999, without --rm_gcodes (with --rm_invalid_modal the same holds of the file without the invalid words, by C89). The computed coordinates are any function whose values are within eps of the exact vertices; for arcs in incremental mode, where the program rounds while computing, this means that its rounding decisions are those of exact arithmetic. C73_path, the distance from the arc, is for the XY plane: the other planes are linearized wrongly (C58). Drilling cycles have the restrictions of C67."
  },
  {
   "property": "C74",
   "status": "partial",
   "theorems": [
    "Pygcode.C74_meaning",
    "Pygcode.C74_direction",
    "Pygcode.C74_empty",
    "Pygcode.C74_capital_refuted",
    "Pygcode.C74_capital",
    "Pygcode.C74_break_refuted"
   ],
   "note": "C74_meaning, C74_direction and C74_empty are complete; the expectation on capital letters is refuted (C74_capital_refuted) and C74_capital says for all values whether they are taken, reported or raise KeyError. C74_break_refuted: a line break at the end is accepted."
  },
  {
   "property": "C75",
   "status": "proved",
   "theorems": [
    "Pygcode.Props.C75_len"
   ],
   "note": "For machines whose active motion mode is a gcode named by its word, with ignore_invalid_modal off (with it on, invalid parameters are skipped and the length is one more)."
  },
  {
   "property": "C76",
   "status": "proved",
   "theorems": [
    "Pygcode.Props.C76_default",
    "Pygcode.Props.C76_no_default",
    "Pygcode.Props.C76_params",
    "Pygcode.Props.C76_rejected",
    "Pygcode.Props.C76_value",
    "Pygcode.Props.C76_complete",
    "Pygcode.Props.C76_incomplete",
    "Pygcode.Props.C76_text"
   ],
   "note": "Parameters in the order they are given; C76_text for values that print exactly."
  },
  {
   "property": "C77",
   "status": "proved",
   "theorems": [
    "Pygcode.C77_full",
    "Pygcode.C77_plain",
    "Pygcode.C77_unlisted",
    "Pygcode.C77_modal_limit"
   ],
   "note": "C77_full, C77_plain: all programs that execute and whose kept gcodes meet the conditions of C66; no expansions, --rm_invalid_modal off. C77_unlisted needs no conditions on the words. C77_modal_limit shows the documented limit."
  },
  {
   "property": "C78",
   "status": "partial",
   "theorems": [
    "Pygcode.C78_same",
    "Pygcode.C78_valid",
    "Pygcode.C78_repeat_refuted"
   ],
   "note": "C78_same: every program on which the script finishes; C78_valid: programs without invalid words or repeated letters. The expectation that programs processed without the option are processed with it is refuted (C78_repeat_refuted)."
  },
  {
   "property": "C79",
   "status": "proved",
   "theorems": [
    "Pygcode.C79_list",
    "Pygcode.C79_printed",
    "Pygcode.C79_default"
   ],
   "note": "Independent grammar (Pieces, WordOf). Simplification: numbers with +, exponent, underscores, inf or nan, which Python accepts in float(), are errors in the model."
  },
  {
   "property": "C80",
   "status": "proved",
   "theorems": [
    "Pygcode.C80_listed",
    "Pygcode.C80_default",
    "Pygcode.C80_second_left"
   ],
   "note": "Conditions of C67 on the program (words that print exactly, cycles that can be expanded). C80_second_left: two cycles on a line."
  },
  {
   "property": "C81",
   "status": "partial",
   "theorems": [
    "Pygcode.Props.C81_values_partial",
    "Pygcode.Props.C81_errors_partial",
    "Pygcode.Props.C81_shared",
    "Pygcode.Props.C81_shared_assign",
    "Pygcode.Props.C81_refuted"
   ],
   "note": "C81_values_partial, C81_errors_partial: no modal parameter is assigned. With one the claim is refuted (C81_refuted, C81_shared_assign)."
  },
  {
   "property": "C82",
   "status": "partial",
   "theorems": [
    "Pygcode.C82_lines_partial",
    "Pygcode.C82_no_blank",
    "Pygcode.C82_macro_refuted",
    "Pygcode.C82_replaced",
    "Pygcode.C82_expanded"
   ],
   "note": "C82_lines_partial: programs as in C66, without expansions and removals of gcodes; C82_expanded, C82_replaced: the same form for programs with expanded cycles (as in C67) and linearized arcs (as in C73); C82_no_blank: every program and all options. That macros are kept is refuted for --singles and for expanded lines (C82_macro_refuted)."
  },
  {
   "property": "C83",
   "status": "partial",
   "theorems": [
    "Pygcode.C83_follow",
    "Pygcode.C83_path_partial",
    "Pygcode.C83_yz_refuted",
    "Pygcode.C83_incremental"
   ],
   "note": "C83_path_partial is for the XY plane in absolute mode, C83_incremental in incremental mode, where the rounding of one increment (half a unit of the last place on both axes) adds to the distance; C83_follow is for all planes where the computed angle takes the start to the end. In the ZX and YZ planes the angles are wrong (C58) and the claim is false (C83_yz_refuted). Heights are the subject of C61."
  },
  {
   "property": "C84",
   "status": "proved",
   "theorems": [
    "Pygcode.C84_text",
    "Pygcode.C84_machine",
    "Pygcode.C84_refused",
    "Pygcode.C84_kinds"
   ],
   "note": "C84_text and C84_machine are equivalences, for every text and every exception; C84_kinds lists the exceptions."
  },
  {
   "property": "C85",
   "status": "proved",
   "theorems": [
    "Pygcode.C85_systems",
    "Pygcode.C85_incremental"
   ],
   "note": "Texts that raise exceptions are included; execution goes on with the next text."
  },
  {
   "property": "C86",
   "status": "partial",
   "theorems": [
    "Pygcode.C86_words",
    "Pygcode.C86_lines",
    "Pygcode.C86_texts_partial",
    "Pygcode.C86_refuted",
    "Pygcode.C86_tool_refuted"
   ],
   "note": "Proved for blanks around letters (T directly before its value), case and comments. Blanks inside a number (C86_refuted) and between T and its value (C86_tool_refuted) do change the meaning."
  },
  {
   "property": "C87",
   "status": "proved",
   "theorems": [
    "Pygcode.C87_words",
    "Pygcode.C87_idle",
    "Pygcode.C87_lines",
    "Pygcode.C87_texts",
    "Pygcode.C87_copy_refuted"
   ],
   "note": "All machines that are in step with their mode (C42: every new machine and whatever it does). A copied machine is not (C41), and C87_copy_refuted shows a line number alone changing what it does."
  },
  {
   "property": "C88",
   "status": "proved",
   "theorems": [
    "Pygcode.C88_plain",
    "Pygcode.C88_expand",
    "Pygcode.C88_run",
    "Pygcode.C88_dwell",
    "Pygcode.C88_refuted"
   ],
   "note": "whole run, expansion included; with arc linearization it is C101"
  },
  {
   "property": "C89",
   "status": "proved",
   "theorems": [
    "Pygcode.C89_first",
    "Pygcode.C89_script",
    "Pygcode.C89_remove",
    "Pygcode.C89_exists",
    "Pygcode.C89_loop",
    "Pygcode.C89_expand"
   ],
   "note": "C89_first, C89_script: all options; the only condition besides a finished run is that the computed arc coordinates do not depend on the machine's ignore flag. C89_exists: the file without the words exists."
  },
  {
   "property": "C90",
   "status": "proved",
   "theorems": [
    "Pygcode.C90_pieces",
    "Pygcode.C90_end",
    "Pygcode.C90_blanks",
    "Pygcode.C90_gcodes",
    "Pygcode.C90_comments",
    "Pygcode.C90_whitespace",
    "Pygcode.C90_count"
   ],
   "note": "C90_pieces (one list of pieces for all option sets with the same task), C90_end, C90_blanks, C90_gcodes, C90_comments, C90_whitespace (a line without comment and macro loses exactly its blanks), C90_count."
  },
  {
   "property": "C91",
   "status": "partial",
   "theorems": [
    "Pygcode.C91_group_partial",
    "Pygcode.C91_cancel_refuted",
    "Pygcode.C91_order",
    "Pygcode.C91_executed",
    "Pygcode.C91_block_partial",
    "Pygcode.C91_coolant_refuted",
    "Pygcode.C91_missing",
    "Pygcode.C91_params"
   ],
   "note": "C91_group_partial and C91_block_partial: every word and block but G80 (C91_cancel_refuted). C91_order, C91_executed, C91_params: in full. C91_missing: exactly which words of the tables are not read. C91_coolant_refuted: M7 M8 on one line is refused, and on two lines only the second is kept."
  },
  {
   "property": "C92",
   "status": "partial",
   "theorems": [
    "Pygcode.C92_which",
    "Pygcode.C92_lines",
    "Pygcode.C92_offsets",
    "Pygcode.C92_offset_refuted",
    "Pygcode.C92_absolute_refuted",
    "Pygcode.C92_home_refuted"
   ],
   "note": "Code disagrees with what the commands are for: C92_offset_refuted, C92_absolute_refuted, C92_home_refuted. Proved: what the code does instead. Idle gcodes with parameters (G4, G10, M6, M61, M50-M53, M62-M68) are covered gcode by gcode by C87_idle."
  },
  {
   "property": "C93",
   "status": "partial",
   "theorems": [
    "Pygcode.C93_lines",
    "Pygcode.C93_crop",
    "Pygcode.C93_motion_refuted"
   ],
   "note": "Limits: the conditions in the statement, which come from the code (C64_incremental_refuted, C64_motion_refuted, C93_motion_refuted). C93_crop: line by line, from the parsed range; C93_lines: for any first printed line."
  },
  {
   "property": "C94",
   "status": "proved",
   "theorems": [
    "Pygcode.C94_scaled",
    "Pygcode.C94_size",
    "Pygcode.C94_units",
    "Pygcode.C94_mirror"
   ],
   "note": "C94_scaled for machines in general, C94_size, C94_units and C94_mirror on a new machine without a mode. R words are scaled by one factor, so the normal axes of all planes that the program selects need this factor: for a mirror image in X that excludes G19."
  },
  {
   "property": "C95",
   "status": "proved",
   "theorems": [
    "Pygcode.C95_word",
    "Pygcode.C95_read",
    "Pygcode.C95_words",
    "Pygcode.C95_block",
    "Pygcode.C95_line",
    "Pygcode.C95_program"
   ],
   "note": "Programs with O words are left out (such a word takes the rest of the line). As in C13, a line with a macro must not have a semicolon comment with text."
  },
  {
   "property": "C96",
   "status": "proved",
   "theorems": [
    "Pygcode.C96_cut",
    "Pygcode.C96_pieces",
    "Pygcode.C96_machine",
    "Pygcode.C96_order_limit"
   ],
   "note": "C96_cut has no condition on the cut. C96_machine: cuts in absolute distance mode, outside canned cycles, with printable values (from C64, C93, where the code fails otherwise)."
  },
  {
   "property": "C97",
   "status": "proved",
   "theorems": [
    "Pygcode.C97_alone",
    "Pygcode.C97_motion",
    "Pygcode.C97_crop"
   ],
   "note": "Proved for --full without --canned_expand, --rm_gcodes and --rm_invalid_modal. The conditions on the original lines are those of C66 (LinesTidy)."
  },
  {
   "property": "C98",
   "status": "proved",
   "theorems": [
    "Pygcode.C98_length",
    "Pygcode.C98_path",
    "Pygcode.C98_tolerance",
    "Pygcode.C98_count",
    "Pygcode.C98_fewer"
   ],
   "note": "Lengths: C98_path through linearize_arc in the XY plane (absolute distance mode, before rounding to words); C98_length in any plane when the computed angle takes the start to the end, which in ZX and YZ fails for most arcs (C58)."
  },
  {
   "property": "C99",
   "status": "proved",
   "theorems": [
    "Pygcode.C99_displaced",
    "Pygcode.C99_reversed",
    "Pygcode.C99_outside"
   ],
   "note": "C99_displaced, C99_reversed. In exact real arithmetic. C99_outside shows that the restriction of the reversal on the named centre is exact: when the centre is on the line through both ends outside them, the two corrected centres are equally near, the one on the right of the span is taken, and the arc that runs back is drawn around the other one (G2 X2 I3 from the origin, and G3 X0 I1 back)."
  },
  {
   "property": "C100",
   "status": "proved",
   "theorems": [
    "Pygcode.C100_fold",
    "Pygcode.C100_ascii",
    "Pygcode.C100_key",
    "Pygcode.C100_separator",
    "Pygcode.C100_clean"
   ],
   "note": "C100_fold, C100_ascii, C100_key, C100_separator, C100_clean."
  },
  {
   "property": "C101",
   "status": "proved",
   "theorems": [
    "Pygcode.C101_arc",
    "Pygcode.C101_loop",
    "Pygcode.C101_run",
    "Pygcode.C101_refuted"
   ],
   "note": "C101_arc, C101_loop and C101_run are full equivalences; C101_refuted shows that being executable is not enough. Which arcs finish is decided in exact arithmetic (real numbers); with floats a case on the border may come out differently."
  },
  {
   "property": "C102",
   "status": "proved",
   "theorems": [
    "Pygcode.C102_read",
    "Pygcode.C102_norm",
    "Pygcode.C102_crop"
   ],
   "note": "Texts are decoded: a file that is not valid in the locale's encoding is out of scope. The result for arcs is for any computed vertices."
  },
  {
   "property": "C103",
   "status": "proved",
   "theorems": [
    "Pygcode.C103_mode",
    "Pygcode.C103_raises",
    "Pygcode.C103_start",
    "Pygcode.C103_default",
    "Pygcode.C103_printed",
    "Pygcode.C103_norm",
    "Pygcode.C103_refuted"
   ],
   "note": "`C103_refuted` starts with G55 and has a machine whose mode is G55 and whose state is in coordinate system 1 until the next gcode is processed (Machine.__init__ does not set the state from the mode). `C103_start` says exactly when this happens."
  },
  {
   "property": "C104",
   "status": "proved",
   "theorems": [
    "Pygcode.C104_machine",
    "Pygcode.C104_norm",
    "Pygcode.C104_streams",
    "Pygcode.C104_pieces"
   ],
   "note": "For the pieces the mode must print exactly (values with at most 3 decimals, no spindle speed together with G96), as for C40."
  },
  {
   "property": "C105",
   "status": "proved",
   "theorems": [
    "Pygcode.C105_scaled",
    "Pygcode.C105_outside",
    "Pygcode.C105_similar"
   ],
   "note": "Proved over real arithmetic. The mirrored form asks for a centre that is not on the line through start and end outside them: for such centres two corrected centres are equally near, and the tie goes to the one on the right of the span, which mirroring does not preserve (C105_outside; G2 X2 I3 and G3 X2 I3 from the origin). The similar form asks for start and end to differ in the plane; equal ones are C58."
  },
  {
   "property": "C106",
   "status": "partial",
   "theorems": [
    "Pygcode.C106_product",
    "Pygcode.C106_turn",
    "Pygcode.C106_align",
    "Pygcode.C106_opposite",
    "Pygcode.C106_system",
    "Pygcode.C106_planes",
    "Pygcode.C106_projection",
    "Pygcode.C106_refuted"
   ],
   "note": "Partial because of the code: for opposite directions quat2align returns the zero quaternion, which takes every vector to zero (`C106_opposite`), and so does quat2coord_system where a rotation exists (`C106_refuted`: X, Y to X, -Y). Over real arithmetic; zero vectors, for which euclid3 divides by zero, are excluded by the hypotheses."
  },
  {
   "property": "C107",
   "status": "partial",
   "theorems": [
    "Pygcode.C107_each",
    "Pygcode.C107_level",
    "Pygcode.C107_below",
    "Pygcode.C107_names",
    "Pygcode.C107_table",
    "Pygcode.C107_comment",
    "Pygcode.C107_exported",
    "Pygcode.C107_documented",
    "Pygcode.C107_found",
    "Pygcode.C107_user_refuted"
   ],
   "note": "Partial because of the code: the words M101-M199 of the description of GCodeUserDefined are found as no class (`C107_user_refuted`), and the nine coordinate systems have no word in their descriptions. The descriptions, names and the text of __init__.py are copied from the source by tools/mkclasses.py."
  },
  {
   "property": "C108",
   "status": "proved",
   "theorems": [
    "Pygcode.C108_first",
    "Pygcode.C108_rebuild",
    "Pygcode.C108_clash",
    "Pygcode.C108_inherited",
    "Pygcode.C108_hidden",
    "Pygcode.C108_builtin",
    "Pygcode.C108_own",
    "Pygcode.C108_others"
   ],
   "note": "The hierarchies have single inheritance, `word_key` and `word_matches` of a class are those Python's attribute lookup gives (inherited ones included), and tests raise no exception."
  },
  {
   "property": "C109",
   "status": "proved",
   "theorems": [
    "Pygcode.C109_again",
    "Pygcode.C109_indent"
   ],
   "note": "Conditions of C67 and C80 on the program."
  },
  {
   "property": "C110",
   "status": "proved",
   "theorems": [
    "Pygcode.C110_none",
    "Pygcode.C110_again"
   ],
   "note": "Conditions of C73 on the program and on floating-point results."
  },
  {
   "property": "C111",
   "status": "partial",
   "theorems": [
    "Pygcode.Props.C111_lex",
    "Pygcode.Props.C111_lex_raised",
    "Pygcode.Props.C111_twice",
    "Pygcode.Props.C111_twice_raised",
    "Pygcode.Props.C111_conflict",
    "Pygcode.Props.C111_conflict_raised",
    "Pygcode.Props.C111_conflict_group",
    "Pygcode.Props.C111_modal",
    "Pygcode.Props.C111_modal_raised",
    "Pygcode.Props.C111_block",
    "Pygcode.Props.C111_conflict_refuted",
    "Pygcode.Props.C111_modal_refuted"
   ],
   "note": "The rules are proved in full. The expectation about the lists is refuted: a repeated gcode without modal group (G4 P1 N5 G4 P2) makes the message list all gcodes without modal group, the line number included (C111_conflict_refuted); and of several left-over words with one letter only the last is listed, e.g. G70 G71 names G71 (C111_modal_refuted)."
  },
  {
   "property": "C112",
   "status": "partial",
   "theorems": [
    "Pygcode.C112_refused",
    "Pygcode.C112_failed",
    "Pygcode.C112_place",
    "Pygcode.C112_refuted"
   ],
   "note": "C112_refused, C112_failed and C112_place are proved in full; the expectation that a failing line changes nothing is refuted (C112_refuted: the modes set by 'G91 G81 X1' stay although no plane is selected, and the move of 'G0 X7 R2' before a failing cycle is made)."
  },
  {
   "property": "C113",
   "status": "proved",
   "theorems": [
    "Pygcode.C113_step",
    "Pygcode.C113_all",
    "Pygcode.C113_path"
   ],
   "note": "C113_path is in the XY plane, in absolute distance mode and before rounding to words; C113_step holds in any plane when the computed angle takes the start to the end, which in ZX and YZ fails for most arcs (C58)."
  },
  {
   "property": "C114",
   "status": "proved",
   "theorems": [
    "Pygcode.C114_printed"
   ],
   "note": "Strengthens C73_path (distance from the circle) for one arc. The computed coordinates are any function whose values are within eps of the exact ones, as in C73. The other planes are linearized wrongly (C58)."
  },
  {
   "property": "C115",
   "status": "proved",
   "theorems": [
    "Pygcode.C115_words",
    "Pygcode.C115_read",
    "Pygcode.C115_same",
    "Pygcode.C115_shown",
    "Pygcode.C115_eq",
    "Pygcode.C115_state"
   ],
   "note": "Larger numbers are shown with six significant digits only, and with an exponent from 999999.5 on (C04)."
  },
  {
   "property": "C116",
   "status": "proved",
   "theorems": [
    "Pygcode.C116_unique",
    "Pygcode.C116_program",
    "Pygcode.C116_absolute"
   ],
   "note": "Conditions on the program as in C73_count_partial: replaced lines have plainly printing words, axes X, Y, Z, coordinates up to 999, drilling cycles as in C67, options --rm_gcodes and --rm_invalid_modal off. The other planes are linearized wrongly (C58)."
  },
  {
   "property": "C117",
   "status": "proved",
   "theorems": [
    "Pygcode.C117_program"
   ],
   "note": "Conditions on the program as in C67_same_partial: XY plane, axes X, Y, Z, plainly printing words, the options --rm_gcodes and --rm_invalid_modal off."
  },
  {
   "property": "C118",
   "status": "proved",
   "theorems": [
    "Pygcode.C118_range",
    "Pygcode.C118_chip_refuted"
   ],
   "note": "Conditions on the program as in C67_same_partial. C118_range is about every such program; C118_chip_refuted is the witness for chips broken above the retract level."
  },
  {
   "property": "C119",
   "status": "proved",
   "theorems": [
    "Pygcode.C119_arc",
    "Pygcode.C119_ends",
    "Pygcode.C119_bulge_refuted",
    "Pygcode.C119_within"
   ],
   "note": "Conditions as in C116 (XY plane, ends that differ). C119_arc: the arcs; C119_ends: the ends of the lines; C119_within: no more than that (the bounds have to hold for every helix that AsksFor allows, which is one unless the named centre is on the line through both ends outside them, C116_unique); C119_bulge_refuted: the witness for reading arcs themselves."
  },
  {
   "property": "C120",
   "status": "proved",
   "theorems": [
    "Pygcode.C120_arc",
    "Pygcode.C120_crop",
    "Pygcode.C120_safe",
    "Pygcode.C120_bulge_refuted",
    "Pygcode.C120_safe_refuted"
   ],
   "note": "C120_arc: one arc, any machine; C120_crop: the moves of pygcode-crop (conditions as in C65); C120_safe: the safe height of pygcode-norm; C120_bulge_refuted, C120_safe_refuted: arcs about another axis."
  },
  {
   "property": "C121",
   "status": "proved",
   "theorems": [
    "Pygcode.C121_centre",
    "Pygcode.C121_lines",
    "Pygcode.C121_mean"
   ],
   "note": "C121_mean, C121_centre: the centre and radius, in all planes; C121_lines: the lines in the XY plane. If the centre fits it is used itself (C56_given)."
  }
 ]
}