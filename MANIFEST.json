{
 "claims": [
  {
   "property": "C01",
   "status": "partial",
   "theorems": [
    "PBat.C01_history_holds_partial",
    "PBat.C01_read_back_partial",
    "PBat.C01_no_overflow_partial",
    "PBat.C01_step_text_partial",
    "PBat.C01_append_overflow"
   ],
   "note": "Proved for every history of calls each needing at most 2^30 bytes, with failing or succeeding allocations, on a byte-level memory model. Beyond 2^30 bytes the claim is false (C01_append_overflow: the int capacity becomes negative)."
  },
  {
   "property": "C02",
   "status": "partial",
   "theorems": [
    "PBat.C02_replace_partial",
    "PBat.C02_result_unique",
    "PBat.C02_empty_pattern_hangs",
    "PBat.C02_replace_char"
   ],
   "note": "Proved for every non-empty pattern. The termination part is false for the empty pattern, which scripts can supply (C02_empty_pattern_hangs)."
  },
  {
   "property": "C03",
   "status": "partial",
   "theorems": [
    "PBat.C03_no_occurrence_partial",
    "PBat.C03_actual_first_step",
    "PBat.C03_wrong_result",
    "PBat.C03_reads_past_end"
   ],
   "note": "False of the code: C03_wrong_result and C03_reads_past_end. Proved: texts without occurrence are unchanged; exact description of the first replacement."
  },
  {
   "property": "C04",
   "status": "partial",
   "theorems": [
    "PBat.C04_reads_lines",
    "PBat.C04_concat",
    "PBat.C04_lines_partial",
    "PBat.C04_lone_cr_merges_lines"
   ],
   "note": "Proved for all streams with lines up to 2^27 bytes: order, completeness, normalisation, end of input, concatenation. Lone carriage returns merge lines (C04_lone_cr_merges_lines)."
  },
  {
   "property": "C05",
   "status": "proved",
   "theorems": [
    "PBat.C05_unescape_meaning",
    "PBat.C05_unescape_escape",
    "PBat.C05_unescape_length",
    "PBat.C05_unescape_plain"
   ],
   "note": "Equality of pBat_UnEscape with an independent recursive unescaping, round trip for every escaped set containing the caret."
  },
  {
   "property": "C06",
   "status": "partial",
   "theorems": [
    "PBat.C06_search_first",
    "PBat.C06_search_last_partial",
    "PBat.C06_search_last_caret_wrong",
    "PBat.C06_next"
   ],
   "note": "Forward search: every text, every set. Backward search: every set without the caret (no caller searches the last caret); the caret case is refuted by C06_search_last_caret_wrong."
  },
  {
   "property": "C07",
   "status": "proved",
   "theorems": [
    "PBat.C07_out_quotes",
    "PBat.C07_hybrid"
   ],
   "note": "First unescaped delimiter outside quotes, for every text and set; plus the hybrid search."
  },
  {
   "property": "C08",
   "status": "partial",
   "theorems": [
    "PBat.C08_history_exact",
    "PBat.C08_history_partial",
    "PBat.C08_read_defined",
    "PBat.C08_read_not_trimmed",
    "PBat.C08_remove_not_trimmed",
    "PBat.C08_mixed_addresses",
    "PBat.C08_inherited_duplicates"
   ],
   "note": "Refinement to a map for all histories over all conforming qsort/bsearch (C08_history_exact); the claim itself for reads/removals of names without trailing blanks and name pointers in one half of the 32 bit address space. The rest is refuted by witnesses (trailing blanks, mixed addresses, inherited duplicates)."
  },
  {
   "property": "C09",
   "status": "partial",
   "theorems": [
    "PBat.C09_restore_exact",
    "PBat.C09_restore_partial",
    "PBat.C09_copy",
    "PBat.C09_unmatched",
    "PBat.C09_quiet",
    "PBat.C09_option_survives"
   ],
   "note": "Environment and enclosing levels restored exactly for every well-bracketed body; options restored to their value after the words of the SETLOCAL line. That an option word of the SETLOCAL line is undone is refuted (C09_option_survives)."
  },
  {
   "property": "C10",
   "status": "partial",
   "theorems": [
    "PBat.C10_return_partial",
    "PBat.C10_lower_case_breaks",
    "PBat.C10_digit_breaks",
    "PBat.C10_stale_inherit"
   ],
   "note": "Proved at every call depth for tables whose other names start with an upper case letter; refuted for lower case and digit names and for reused slots of removed inheritable variables."
  },
  {
   "property": "C11",
   "status": "proved",
   "theorems": [
    "PBat.C11_block",
    "PBat.C11_once",
    "PBat.C11_child"
   ],
   "note": "Block contents, size and bounds for every table; each defined variable listed once; a child started from the block has the same map."
  },
  {
   "property": "C12",
   "status": "partial",
   "theorems": [
    "PBat.C12_substring_partial",
    "PBat.C12_from_partial",
    "PBat.C12_never_split",
    "PBat.C12_undefined",
    "PBat.C12_forward",
    "PBat.C12_length_not_clamped",
    "PBat.C12_start_not_clamped",
    "PBat.C12_inside_refused",
    "PBat.C12_overflow",
    "PBat.C12_abs_overflow"
   ],
   "note": "Exact result for all values (sequences of code points), names and integer numerals without signed overflow: the documented range when the request fits, nothing otherwise. The code does not clamp; witnesses C12_length_not_clamped, C12_start_not_clamped, C12_inside_refused, and two overflow witnesses."
  },
  {
   "property": "C13",
   "status": "proved",
   "theorems": [
    "PBat.C13_expansion",
    "PBat.C13_plain",
    "PBat.C13_template",
    "PBat.C13_double",
    "PBat.C13_argument_first",
    "PBat.C13_delayed",
    "PBat.C13_not_delayed",
    "PBat.C13_loop_value_rescanned"
   ],
   "note": "Equivalence of the expansion with a grammar of lines (no searching or indices), plus templates, doubling, argument precedence and the delayed pass. Loop-variable values are scanned again by the ! pass (C13_loop_value_rescanned); the claim is about the percent pass."
  },
  {
   "property": "C14",
   "status": "partial",
   "theorems": [
    "PBat.C14_next",
    "PBat.C14_roundtrip",
    "PBat.C14_quoted_partial",
    "PBat.C14_no_more",
    "PBat.C14_terminates",
    "PBat.C14_caret_joins",
    "PBat.C14_caret_lost",
    "PBat.C14_program_arguments_expanded_twice"
   ],
   "note": "Exact extent and value of every parameter of every line; full round trip for all lists of all texts when ^ \" % ! are escaped inside quotes; the claim as stated for texts without caret and with nothing to expand. Violations: C14_caret_joins, C14_caret_lost, C14_program_arguments_expanded_twice."
  },
  {
   "property": "C15",
   "status": "partial",
   "theorems": [
    "PBat.C15_total",
    "PBat.C15_lossless",
    "PBat.C15_no_blocks",
    "PBat.C15_grammar_partial",
    "PBat.C15_escaped_gt_hides_operator",
    "PBat.C15_paren_after_block_refused",
    "PBat.C15_paren_after_block_hides_operator",
    "PBat.C15_block_cut"
   ],
   "note": "Total and lossless on every line; without parentheses the split is that of the left-to-right reference reader (unless ^>& occurs); for lines of commands following the block grammar the split is exact. Missing: plain commands containing parentheses on lines with blocks, and escaped > before &, where the code breaks the claim (witnesses)."
  },
  {
   "property": "C16",
   "status": "partial",
   "theorems": [
    "PBat.C16_chain_partial",
    "PBat.C16_command"
   ],
   "note": "Proved for all lines without IF/FOR; lines left early are covered when they have no pipeline (see C46)."
  },
  {
   "property": "C17",
   "status": "proved",
   "theorems": [
    "PBat.C17_line",
    "PBat.C17_command",
    "PBat.C17_script",
    "PBat.C17_callee",
    "PBat.C17_callee_below"
   ],
   "note": "For every line, command, block, call and script, whatever commands do and whichever files fail to open; plus the LIFO theorem over arbitrary operations of a callee."
  },
  {
   "property": "C18",
   "status": "proved",
   "theorems": [
    "PBat.C18_commands",
    "PBat.C18_start",
    "PBat.C18_labels",
    "PBat.C18_label_position"
   ],
   "note": "Lines as returned by pBat_EsGet (C04)."
  },
  {
   "property": "C19",
   "status": "partial",
   "theorems": [
    "PBat.C19_jump_partial",
    "PBat.C19_other_file",
    "PBat.C19_other_file_missing",
    "PBat.C19_missing_label_undefined",
    "PBat.C19_name",
    "PBat.C19_eof",
    "PBat.C19_goto_partial"
   ],
   "note": "Proved when the label exists; a label missing from the running script is undefined behaviour (C19_missing_label_undefined)."
  },
  {
   "property": "C20",
   "status": "partial",
   "theorems": [
    "PBat.C20_continue_partial",
    "PBat.C20_history_partial",
    "PBat.C20_restarts",
    "PBat.C20_same_size_unseen",
    "PBat.C20_uninitialised_unseen"
   ],
   "note": "Proved while commands are only added; fewer commands make the script start again (C20_restarts), edits of the same size are unseen, and the changed-test reads an uninitialised variable."
  },
  {
   "property": "C21",
   "status": "partial",
   "theorems": [
    "PBat.C21_call_partial",
    "PBat.C21_sound",
    "PBat.C21_words",
    "PBat.C21_builtin_partial",
    "PBat.C21_goto_semicolon",
    "PBat.C21_call_semicolon",
    "PBat.C21_order_matters",
    "PBat.C21_small_rebuild_empty",
    "PBat.C21_redefine_hits_other"
   ],
   "note": "Proved for tables of names above ';' that end with the word (C21_words) and for the built-in table except GOTO followed by ';', which is not found (C21_goto_semicolon); order matters in general, rebuilding 2-3 commands loses them, redefinition can hit a shorter name."
  },
  {
   "property": "C22",
   "status": "partial",
   "theorems": [
    "PBat.C22_progression_partial",
    "PBat.C22_texts",
    "PBat.C22_downwards_runs_nothing",
    "PBat.C22_downwards_undefined",
    "PBat.C22_step_zero_hangs",
    "PBat.C22_overflow",
    "PBat.C22_large_bounds"
   ],
   "note": "Holds for a positive step when one step beyond the end still fits an int. Negative steps, step 0, ends near the greatest integer and bounds outside int are counterexamples, proved."
  },
  {
   "property": "C23",
   "status": "partial",
   "theorems": [
    "PBat.C23_token",
    "PBat.C23_range",
    "PBat.C23_range_open",
    "PBat.C23_rest_partial",
    "PBat.C23_rest_cut"
   ],
   "note": "Single tokens and ranges hold for every line; n* holds for lines of fewer than 65535 tokens, beyond which the rest is cut (proved)."
  },
  {
   "property": "C24",
   "status": "partial",
   "theorems": [
    "PBat.C24_selections_partial",
    "PBat.C24_variables_partial",
    "PBat.C24_even_first",
    "PBat.C24_tokens_2",
    "PBat.C24_second_option"
   ],
   "note": "Holds when the first selected token is odd. tokens=n with even n selects n+1, because the option is or-ed onto the default; a second tokens= is merged bitwise (both proved)."
  },
  {
   "property": "C25",
   "status": "partial",
   "theorems": [
    "PBat.C25_simple",
    "PBat.C25_l",
    "PBat.C25_nested",
    "PBat.C25_f_partial",
    "PBat.C25_f_in_use",
    "PBat.C25_f_wrap_leaks",
    "PBat.C25_f_outer_lost"
   ],
   "note": "Holds for FOR and FOR /L; for FOR /F when the names do not wrap. Counterexamples proved: wrapped names leak, an outer loop's further variable is unassigned by FOR /F over empty input."
  },
  {
   "property": "C26",
   "status": "partial",
   "theorems": [
    "PBat.C26_order_partial",
    "PBat.C26_numbers",
    "PBat.C26_large",
    "PBat.C26_text",
    "PBat.C26_same",
    "PBat.C26_unknown",
    "PBat.C26_nan",
    "PBat.C26_empty",
    "PBat.C26_precision"
   ],
   "note": "Exactly one of LSS/EQU/GTR and complementarity for all operands not read as NaN; numbers compare by value, words byte-wise, for all operands. Negations proved: 'nan' operands, empty operand equals 0, integers above 2^53."
  },
  {
   "property": "C27",
   "status": "partial",
   "theorems": [
    "PBat.C27_value_partial",
    "PBat.C27_value_i_partial",
    "PBat.C27_or_first",
    "PBat.C27_or_defined",
    "PBat.C27_and_undefined",
    "PBat.C27_and_undefined_line",
    "PBat.C27_and_garbage",
    "PBat.C27_precedence",
    "PBat.C27_not_group",
    "PBat.C27_dangling",
    "PBat.C27_leading"
   ],
   "note": "Value of the formula for every nesting, for groups not mixing AND and OR, whenever the result is defined. Negations proved: AND with a true first operand reads an unset variable (undefined), documented precedence of AND over OR is reversed, NOT before a group refused, dangling connectives."
  },
  {
   "property": "C28",
   "status": "partial",
   "theorems": [
    "PBat.C28_call_partial",
    "PBat.C28_start_partial",
    "PBat.C28_enumerates_partial",
    "PBat.C28_seven",
    "PBat.C28_caret",
    "PBat.C28_empty",
    "PBat.C28_expanded",
    "PBat.C28_beyond"
   ],
   "note": "CALL and start-up arguments followed by any sequence of SHIFT commands with any documented options enumerate all arguments, for arguments after the ninth that are non-empty and free of ^ % ! and newlines, and displacements within %0-%9. Violations proved: /7 refused, caret dropped, empty argument lost, text re-expanded, displacement beyond %9 drops too few."
  },
  {
   "property": "C29",
   "status": "partial",
   "theorems": [
    "PBat.C29_stack_partial",
    "PBat.C29_nested_partial",
    "PBat.C29_empty",
    "PBat.C29_refused",
    "PBat.C29_gone",
    "PBat.C29_elsewhere",
    "PBat.C29_root",
    "PBat.C29_alloc"
   ],
   "note": "PUSHD/POPD restore directories in LIFO order while the directories still exist, the current directory is not the empty text and allocation succeeds (C29_stack_partial, C29_nested_partial). Violations proved: POPD to a vanished directory loses the entry (C29_gone) or goes below the current one (C29_elsewhere), the root reached by .. is not restored (C29_root), allocation failure is silent (C29_alloc)."
  },
  {
   "property": "C30",
   "status": "partial",
   "theorems": [
    "PBat.C30_exact",
    "PBat.C30_same_partial",
    "PBat.C30_walk_partial",
    "PBat.C30_idempotent",
    "PBat.C30_length",
    "PBat.C30_above_root",
    "PBat.C30_above_root_example",
    "PBat.C30_root_empty"
   ],
   "note": "Canonicalisation follows the components while .. never climbs above the root and the result is not the root itself (C30_walk_partial, C30_same_partial), is idempotent and never longer. Violations proved: .. at the root drops everything after it (C30_above_root), a path returning to the root by .. becomes empty (C30_root_empty)."
  },
  {
   "property": "C31",
   "status": "partial",
   "theorems": [
    "PBat.C31_value_partial",
    "PBat.C31_command_partial",
    "PBat.C31_decimal_partial",
    "PBat.C31_wide_partial",
    "PBat.C31_unbalanced",
    "PBat.C31_refused",
    "PBat.C31_bitwise_levels",
    "PBat.C31_not",
    "PBat.C31_division_by_zero",
    "PBat.C31_shift_assign",
    "PBat.C31_logical_assign",
    "PBat.C31_function",
    "PBat.C31_syntax_error"
   ],
   "note": "All integer and decimal expressions of any depth, with documented precedence, blanks anywhere, inner assignments, lines of several assignments and op= forms; integers beyond 32 bits as long as every part fits; double arithmetic is a parameter with stated laws; unbalanced or refused expressions are reported. Missing/violated: ||,|,^ (and &&,&) share a level in the code, ! is never an operator, <<= >>= &&= ||= wrong, division by zero undefined, syntax errors assign nan, function arguments are not made decimal."
  },
  {
   "property": "C32",
   "status": "partial",
   "theorems": [
    "PBat.C32_chunking",
    "PBat.C32_counts_partial",
    "PBat.C32_last_word",
    "PBat.C32_read_error",
    "PBat.C32_total",
    "PBat.C32_rows_partial",
    "PBat.C32_command_partial",
    "PBat.C32_stdin_default",
    "PBat.C32_stdin_bytes"
   ],
   "note": "Whole command: options, relative and absolute names, the rows and the total. Lines, bytes and characters are exact for every splitting; words are exact when the content is empty or ends with a separator, otherwise always one too small (C32_last_word)."
  },
  {
   "property": "C33",
   "status": "partial",
   "theorems": [
    "PBat.C33_match_partial",
    "PBat.C33_sound_partial",
    "PBat.C33_star_at_end",
    "PBat.C33_question_after_star",
    "PBat.C33_no_backtracking",
    "PBat.C33_first_byte_only"
   ],
   "note": "Proved for names in UTF-8 and ASCII patterns without ? after *, with the code's rule that a final * needs one character; soundness for all ASCII patterns without *?. Violations proved: final * does not match the empty text, *? , missing backtracking after *, non-ASCII characters compared by their first byte."
  },
  {
   "property": "C34",
   "status": "partial",
   "theorems": [
    "PBat.C34_filter_partial",
    "PBat.C34_split",
    "PBat.C34_system",
    "PBat.C34_void",
    "PBat.C34_hidden_system",
    "PBat.C34_both",
    "PBat.C34_find_filter"
   ],
   "note": "Filter theorem for every text that does not exclude S or I, nor requires them while excluding H, nor names an attribute both ways; list splitting proved for all chains at pointer level. Violations proved for each excluded case and for FIND's filter."
  },
  {
   "property": "C35",
   "status": "proved",
   "theorems": [
    "PBat.C35_acquire",
    "PBat.C35_kept",
    "PBat.C35_reused",
    "PBat.C35_room"
   ],
   "note": "Over all histories of acquiring, writing and releasing held strings, with arbitrary allocation failures."
  },
  {
   "property": "C36",
   "status": "partial",
   "theorems": [
    "PBat.C36_split_partial",
    "PBat.C36_lossless_partial",
    "PBat.C36_drive_loses_separator",
    "PBat.C36_caret",
    "PBat.C36_long"
   ],
   "note": "The separator after a drive is lost, a caret hides the separator, and names beyond the buffers are not handled: see the violation theorems"
  },
  {
   "property": "C37",
   "status": "proved",
   "theorems": [
    "PBat.C37_entries",
    "PBat.C37_search",
    "PBat.C37_with_separator",
    "PBat.C37_unset"
   ],
   "note": "For names that fit the buffers and are not device names; directories and files are a parameter"
  },
  {
   "property": "C38",
   "status": "partial",
   "theorems": [
    "PBat.C38_expand_partial",
    "PBat.C38_argument_again",
    "PBat.C38_dollar_joins",
    "PBat.C38_colon"
   ],
   "note": "Proved for arguments without dollar signs and bodies without doubled dollars; the exact sequential semantics is proved for all, and the claim is refuted for the others"
  },
  {
   "property": "C39",
   "status": "partial",
   "theorems": [
    "PBat.C39_level_partial",
    "PBat.C39_level_default",
    "PBat.C39_process_default",
    "PBat.C39_process_zero",
    "PBat.C39_process_second",
    "PBat.C39_level_trailing",
    "PBat.C39_returns"
   ],
   "note": "EXIT /B n is proved when nothing follows n; EXIT n always ends with 0, and a blank after EXIT /B n makes it refused: see the violation theorems"
  },
  {
   "property": "C40",
   "status": "partial",
   "theorems": [
    "PBat.C40_result",
    "PBat.C40_grammar_partial",
    "PBat.C40_balanced_partial",
    "PBat.C40_quote_after_block_lost",
    "PBat.C40_escape_after_block_lost",
    "PBat.C40_plain_parentheses_not_counted"
   ],
   "note": "Proved for every block of the grammar documented at the head of pBat_ParseBlock.c, of any depth; the end found is the parenthesis found by counting outside quotes and escapes when plain commands contain none. Fails otherwise: a quote or escape right after a nested block is skipped, parentheses in plain commands are not counted (witnesses proved)."
  },
  {
   "property": "C41",
   "status": "proved",
   "theorems": [
    "PBat.C41_reference",
    "PBat.C41_progress",
    "PBat.C41_unquote",
    "PBat.C41_bare",
    "PBat.C41_set"
   ],
   "note": "Exact reading of references; what file modifiers make of a path is a parameter."
  },
  {
   "property": "C42",
   "status": "partial",
   "theorems": [
    "PBat.C42_replace_partial",
    "PBat.C42_replace_undefined",
    "PBat.C42_default",
    "PBat.C42_plain",
    "PBat.C42_environment",
    "PBat.C42_empty_hangs"
   ],
   "note": "All old texts but the empty one, for which the code loops forever (C42_empty_hangs); default and plain references in full."
  },
  {
   "property": "C43",
   "status": "partial",
   "theorems": [
    "PBat.C43_block_partial",
    "PBat.C43_call_partial",
    "PBat.C43_if_loses_error_level",
    "PBat.C43_for_loses_error_level"
   ],
   "note": "Holds for blocks and CALL; false for IF and FOR, which always leave error level 0 (proved for all bodies)."
  },
  {
   "property": "C44",
   "status": "partial",
   "theorems": [
    "PBat.C44_if_partial",
    "PBat.C44_if_else_partial",
    "PBat.C44_for_partial",
    "PBat.C44_for_after_or",
    "PBat.C44_for_after_and",
    "PBat.C44_after_pipe",
    "PBat.C44_if_after_for_frozen"
   ],
   "note": "Proved for IF/FOR at the start of a line (or after &); false after && / || / | and for IF or FOR following FOR on a line (witnesses)."
  },
  {
   "property": "C45",
   "status": "partial",
   "theorems": [
    "PBat.C45_streams_partial",
    "PBat.C45_named",
    "PBat.C45_inside_dup",
    "PBat.C45_inside_dup_err"
   ],
   "note": "Proved unless a 2>&1 or 1>&2 is already in force; false inside those (witnesses)."
  },
  {
   "property": "C46",
   "status": "partial",
   "theorems": [
    "PBat.C46_line_partial",
    "PBat.C46_block",
    "PBat.C46_level",
    "PBat.C46_rest_partial",
    "PBat.C46_loop",
    "PBat.C46_call",
    "PBat.C46_pipeline_runs"
   ],
   "note": "Proved for blocks, loops, levels and lines without pipelines; false when the rest of the line contains a pipeline (witness)."
  },
  {
   "property": "C47",
   "status": "partial",
   "theorems": [
    "PBat.C47_read_partial",
    "PBat.C47_total"
   ],
   "note": "Proved for command lines of the documented grammar (Whole); the converse, that any text read is of that form, is false for the parentheses of C40."
  },
  {
   "property": "C48",
   "status": "partial",
   "theorems": [
    "PBat.C48_lines",
    "PBat.C48_visited_partial",
    "PBat.C48_empty_lines"
   ],
   "note": "Holds for text input whenever there is an eol character; without one empty lines are visited (proved). The collecting of the lines of files and of the output of commands is the subject of C73."
  },
  {
   "property": "C49",
   "status": "partial",
   "theorems": [
    "PBat.C49_object",
    "PBat.C49_same",
    "PBat.C49_not_ignored",
    "PBat.C49_negation_fails",
    "PBat.C49_brackets_fail",
    "PBat.C49_empty_left",
    "PBat.C49_long_word"
   ],
   "note": "NOT negates DEFINED, EXIST, ERRORLEVEL and == for all texts. Proved negation: NOT is ignored for every named comparison and for bracketed expressions; empty left text reads before the buffer; words beginning with errorlevel taken for the keyword."
  },
  {
   "property": "C50",
   "status": "partial",
   "theorems": [
    "PBat.C50_relative_partial",
    "PBat.C50_absolute_partial",
    "PBat.C50_missing",
    "PBat.C50_text",
    "PBat.C50_quoted",
    "PBat.C50_absolute_falls_back",
    "PBat.C50_above",
    "PBat.C50_truncated",
    "PBat.C50_empty_quotes"
   ],
   "note": "Proved for paths that do not climb above the root, fit the buffer and (absolute) exist. Violations proved: absolute paths that do not exist fall back below the current directory, .. above the root drops the rest, too long paths are cut, CD \"\" asks for a directory called \"."
  },
  {
   "property": "C51",
   "status": "partial",
   "theorems": [
    "PBat.C51_lines_partial",
    "PBat.C51_bytes_partial",
    "PBat.C51_expression_partial",
    "PBat.C51_command",
    "PBat.C51_files",
    "PBat.C51_empty",
    "PBat.C51_unreadable",
    "PBat.C51_directory"
   ],
   "note": "Proved for non-empty texts and files that can be opened; the empty text, unreadable files and directories are refuted: see the violation theorems"
  },
  {
   "property": "C52",
   "status": "partial",
   "theorems": [
    "PBat.C52_removes_partial",
    "PBat.C52_asks_partial",
    "PBat.C52_no_match",
    "PBat.C52_no_name",
    "PBat.C52_prompt",
    "PBat.C52_readonly",
    "PBat.C52_absolute",
    "PBat.C52_directory",
    "PBat.C52_invalid",
    "PBat.C52_end"
   ],
   "note": "Proved for the attributes treated properly (C34), without /P, for relative names and valid answers. Violations proved: /P never asks, /A drops the protection of read-only files, names beginning with /a are options, jokers in the current directory, invalid answers and end of input undefined."
  },
  {
   "property": "C53",
   "status": "partial",
   "theorems": [
    "PBat.C53_total",
    "PBat.C53_command_partial",
    "PBat.C53_line_partial",
    "PBat.C53_only_removes",
    "PBat.C53_unchanged",
    "PBat.C53_before_block",
    "PBat.C53_error_to_itself",
    "PBat.C53_empty_name"
   ],
   "note": "Proved for every command of a grammar with text, quotes, escapes, blocks and redirections after the first block, alone and in lines of commands; every analysis ends; without blocks nothing is ever added. Missing: redirections before a block, where the claim fails (C53_before_block); 2>&2 and >&2 misbehave."
  },
  {
   "property": "C54",
   "status": "partial",
   "theorems": [
    "PBat.C54_device",
    "PBat.C54_plain_partial",
    "PBat.C54_file_partial",
    "PBat.C54_fits",
    "PBat.C54_in_place_partial",
    "PBat.C54_spelling",
    "PBat.C54_undefined",
    "PBat.C54_in_place_device",
    "PBat.C54_in_place_undefined"
   ],
   "note": "proved for every name, directory and buffer size except COM/LPT followed by an unusual number; in-place completion holds for names of files when the text is not moved; violations proved for the rest"
  },
  {
   "property": "C55",
   "status": "partial",
   "theorems": [
    "PBat.C55_below",
    "PBat.C55_find_partial",
    "PBat.C55_contents",
    "PBat.C55_recursive_partial",
    "PBat.C55_recursive_dir",
    "PBat.C55_literal",
    "PBat.C55_name_below",
    "PBat.C55_violations"
   ],
   "note": "proved for every file system and pattern without doubled separators that is not itself the name of a file; in subdirectory searches the last level must have a joker; violations proved for the rest"
  },
  {
   "property": "C56",
   "status": "partial",
   "theorems": [
    "PBat.C56_quiet",
    "PBat.C56_asks_partial",
    "PBat.C56_single",
    "PBat.C56_no_name",
    "PBat.C56_no_match",
    "PBat.C56_tree",
    "PBat.C56_violations"
   ],
   "note": "RD over an abstract system of files: C56_quiet, C56_asks_partial (answers understood), C56_single, C56_no_match, and C56_tree (RD /S /Q removes exactly the tree, with the search of C55). Violations: the failure of a single directory is not reported, jokers are not expanded with a single name, plain files are removed when several names are given."
  },
  {
   "property": "C57",
   "status": "proved",
   "theorems": [
    "PBat.C57_made",
    "PBat.C57_level",
    "PBat.C57_documented",
    "PBat.C57_names",
    "PBat.C57_no_name"
   ],
   "note": "pBat_CmdMakeDirs on every tree: C57_made (exactly what is made), C57_level, C57_documented; C57_names for several names. The completion of the name is that of C54. Finding: MD without a name is accepted (C57_no_name)."
  },
  {
   "property": "C58",
   "status": "partial",
   "theorems": [
    "PBat.C58_renames_partial",
    "PBat.C58_refused",
    "PBat.C58_files_partial",
    "PBat.C58_missing_partial",
    "PBat.C58_overwrites",
    "PBat.C58_backslash",
    "PBat.C58_overflow",
    "PBat.C58_cut"
   ],
   "note": "C58_renames_partial, C58_files_partial, C58_missing_partial, C58_refused. Violations: another file with the new name is lost, a backslash in the name counts as a separator, overflow and truncation of paths of 4096 bytes."
  },
  {
   "property": "C59",
   "status": "partial",
   "theorems": [
    "PBat.C59_copy_partial",
    "PBat.C59_copy_ends",
    "PBat.C59_copy_fails",
    "PBat.C59_cat_partial",
    "PBat.C59_move",
    "PBat.C59_cat_ends",
    "PBat.C59_move_fails",
    "PBat.C59_copy_self",
    "PBat.C59_move_self",
    "PBat.C59_move_loses",
    "PBat.C59_cat_self",
    "PBat.C59_cat_endless",
    "PBat.C59_repeated"
   ],
   "note": "Exact for different files when no call is refused; refused writes can put bytes twice, and copies onto the file itself lose it (violations proved)."
  },
  {
   "property": "C60",
   "status": "partial",
   "theorems": [
    "PBat.C60_plan_partial",
    "PBat.C60_swapped",
    "PBat.C60_no_match",
    "PBat.C60_refused",
    "PBat.C60_into_folder_partial",
    "PBat.C60_join_partial",
    "PBat.C60_onto",
    "PBat.C60_lost",
    "PBat.C60_asked",
    "PBat.C60_asks_again",
    "PBat.C60_slash_a",
    "PBat.C60_directory"
   ],
   "note": "The rule holds when the files are counted rightly (CountOk); wrong counts, swapped options and repeated questions are proved as violations."
  },
  {
   "property": "C61",
   "status": "partial",
   "theorems": [
    "PBat.C61_tree_partial",
    "PBat.C61_no_match",
    "PBat.C61_level",
    "PBat.C61_move"
   ],
   "note": "COPY /R of one source; level of several sources and directories of MOVE /R are wrong (proved)."
  },
  {
   "property": "C62",
   "status": "partial",
   "theorems": [
    "PBat.C62_assign_partial",
    "PBat.C62_roundtrip",
    "PBat.C62_x_partial",
    "PBat.C62_remove_blank",
    "PBat.C62_list_partial",
    "PBat.C62_list_unexpanded",
    "PBat.C62_list_x",
    "PBat.C62_list_all_partial",
    "PBat.C62_list_removed",
    "PBat.C62_prompt",
    "PBat.C62_prompt_quoted",
    "PBat.C62_prompt_bad"
   ],
   "note": "assignments and prompts hold for every text and environment (roundtrip and prompt theorems complete); removal of a name followed by blanks, listing with something to expand, SET /x listing and SET alone after a removal violate the claim and are proved as such"
  },
  {
   "property": "C63",
   "status": "partial",
   "theorems": [
    "PBat.C63_label_partial",
    "PBat.C63_script_partial",
    "PBat.C63_file_label_partial",
    "PBat.C63_returns",
    "PBat.C63_nothing",
    "PBat.C63_not_found",
    "PBat.C63_file_label_missing",
    "PBat.C63_disabled",
    "PBat.C63_program_partial",
    "PBat.C63_help",
    "PBat.C63_first_lost",
    "PBat.C63_self",
    "PBat.C63_other_case",
    "PBat.C63_label_lost",
    "PBat.C63_label_missing",
    "PBat.C63_program_blank"
   ],
   "note": "Labels, scripts and labels of other files: arguments and return to the caller for every called text; errors; fails for a script calling itself (it goes on after the CALL), /? as first argument, the first argument after /e file without label, files differing from the running script by case, missing labels, programs with a blank in their path"
  },
  {
   "property": "C64",
   "status": "partial",
   "theorems": [
    "PBat.C64_prompt",
    "PBat.C64_literal",
    "PBat.C64_pecho",
    "PBat.C64_pecho_literal",
    "PBat.C64_set",
    "PBat.C64_one_digit",
    "PBat.C64_pecho_bare",
    "PBat.C64_unknown",
    "PBat.C64_last_dollar"
   ],
   "note": "All texts made of characters and of the codes of the manual. Missing: a dollar that begins no code is not shown as it is (C64_unknown, C64_last_dollar), and PECHO alone is undefined (C64_pecho_bare)."
  },
  {
   "property": "C65",
   "status": "partial",
   "theorems": [
    "PBat.C65_color_partial",
    "PBat.C65_same",
    "PBat.C65_invalid",
    "PBat.C65_reset",
    "PBat.C65_history_partial",
    "PBat.C65_default_refused",
    "PBat.C65_one_digit",
    "PBat.C65_one_digit_text"
   ],
   "note": "All codes of two characters, all histories of them. Missing: colours equal when the default counts as black are refused (C65_default_refused); codes of one character, accepted, lose the background (C65_one_digit)."
  },
  {
   "property": "C66",
   "status": "partial",
   "theorems": [
    "PBat.C66_dot",
    "PBat.C66_text_partial",
    "PBat.C66_words_partial",
    "PBat.C66_switch",
    "PBat.C66_state",
    "PBat.C66_glued",
    "PBat.C66_quoted",
    "PBat.C66_comma"
   ],
   "note": "ECHO. for all texts; ECHO text for all texts that begin with an ordinary character other than o, and for all lists of words and quoted words. Missing: other texts that begin with an escape; quotes around ON and OFF (C66_quoted); texts made of commas (C66_comma)."
  },
  {
   "property": "C67",
   "status": "partial",
   "theorems": [
    "PBat.C67_type_partial",
    "PBat.C67_no_match",
    "PBat.C67_input",
    "PBat.C67_unreadable",
    "PBat.C67_lost",
    "PBat.C67_three",
    "PBat.C67_names"
   ],
   "note": "One name, or two of which the first matches one file. Missing: other lists lose files (C67_lost, C67_three); names go to the standard output (C67_names)."
  },
  {
   "property": "C68",
   "status": "partial",
   "theorems": [
    "PBat.C68_args_partial",
    "PBat.C68_written_partial",
    "PBat.C68_missing",
    "PBat.C68_empty",
    "PBat.C68_interpreted",
    "PBat.C68_quotes",
    "PBat.C68_twice"
   ],
   "note": "Lines not empty, without quote, caret, percent or exclamation mark. Missing: empty lines are lost (C68_empty), special characters are interpreted (C68_interpreted, C68_quotes), the command is expanded twice (C68_twice)."
  },
  {
   "property": "C69",
   "status": "partial",
   "theorems": [
    "PBat.C69_history_partial",
    "PBat.C69_runs_partial",
    "PBat.C69_list",
    "PBat.C69_no_equal",
    "PBat.C69_echo",
    "PBat.C69_blank",
    "PBat.C69_empty",
    "PBat.C69_list_blank"
   ],
   "note": "Names made of characters after /, that do not begin with ECHO, GOTO: or CALL:, redefined names having no shorter command as beginning. Missing: C69_echo, C69_blank, C69_empty, C69_list_blank; DEF /f of a name that continues another one (C21_redefine_hits_other)."
  },
  {
   "property": "C70",
   "status": "partial",
   "theorems": [
    "PBat.C70_options_partial",
    "PBat.C70_variables_partial",
    "PBat.C70_refused",
    "PBat.C70_refused_after",
    "PBat.C70_leading_space",
    "PBat.C70_swallowed",
    "PBat.C70_eol_order",
    "PBat.C70_tab"
   ],
   "note": "The option list may not hold both `eol=;` and a semicolon among the delimiters, the first token selected is odd (C24), at most one `tokens=`. Missing: C70_leading_space, C70_swallowed, C70_eol_order, C24_even_first, C24_second_option."
  },
  {
   "property": "C71",
   "status": "partial",
   "theorems": [
    "PBat.C71_chunks_partial",
    "PBat.C71_colon",
    "PBat.C71_single_quotes",
    "PBat.C71_newline"
   ],
   "note": "Sets without a colon outside double quotes. Missing: C71_colon, C71_single_quotes, C71_newline."
  },
  {
   "property": "C72",
   "status": "partial",
   "theorems": [
    "PBat.C72_line_partial",
    "PBat.C72_no_variable",
    "PBat.C72_no_options",
    "PBat.C72_one_directory",
    "PBat.C72_words",
    "PBat.C72_trailing",
    "PBat.C72_ends",
    "PBat.C72_unclosed",
    "PBat.C72_doubled",
    "PBat.C72_long_name",
    "PBat.C72_smiley"
   ],
   "note": "Sets and blocks with balanced parentheses and quotes. Missing: C72_unclosed, C72_long_name, C72_smiley."
  },
  {
   "property": "C73",
   "status": "partial",
   "theorems": [
    "PBat.C73_text_partial",
    "PBat.C73_command_partial",
    "PBat.C73_files_partial",
    "PBat.C73_errors",
    "PBat.C73_walk_partial",
    "PBat.C73_quote",
    "PBat.C73_blank",
    "PBat.C73_missing",
    "PBat.C73_many",
    "PBat.C73_empty",
    "PBat.C73_lone_cr",
    "PBat.C73_separators"
   ],
   "note": "Texts and commands without their own quote, at most 128 files all of which open, no lone carriage returns, no empty line while there is an eol character. Missing: C73_quote, C73_blank, C73_missing, C73_many, C73_empty, C73_lone_cr, C73_separators."
  },
  {
   "property": "C74",
   "status": "partial",
   "theorems": [
    "PBat.C74_edit_partial",
    "PBat.C74_every_key",
    "PBat.C74_given_up",
    "PBat.C74_mark",
    "PBat.C74_swap",
    "PBat.C74_invalid",
    "PBat.C74_hangup",
    "PBat.C74_zero",
    "PBat.C74_recall",
    "PBat.C74_function_key",
    "PBat.C74_escape"
   ],
   "note": "UTF-8 text without zero bytes, no combining mark at the begin of the line or of a part cut off, Ctrl-T only on one-byte characters, recalled lines shorter than the buffer. Missing: C74_mark, C74_swap, C74_invalid, C74_hangup, C74_zero, C74_recall."
  },
  {
   "property": "C75",
   "status": "partial",
   "theorems": [
    "PBat.C75_bounds_partial",
    "PBat.C75_progress",
    "PBat.C75_line_partial",
    "PBat.C75_garbled"
   ],
   "note": "All bytes, all completions: every state reached is in bounds as long as the editor has not looked at an unset code before. Missing: C75_garbled (text that is not UTF-8); for UTF-8 text C74_edit_partial excludes it."
  },
  {
   "property": "C76",
   "status": "partial",
   "theorems": [
    "PBat.C76_lines_partial",
    "PBat.C76_recall_partial",
    "PBat.C76_cancel"
   ],
   "note": "The restrictions of C74; lines written without calling others back for C76_recall_partial (C76_lines_partial has none of this). Missing: C76_cancel."
  },
  {
   "property": "C77",
   "status": "partial",
   "theorems": [
    "PBat.C77_answer_partial",
    "PBat.C77_word_partial",
    "PBat.C77_quoted_word",
    "PBat.C77_tab_partial",
    "PBat.C77_list_partial",
    "PBat.C77_last_part",
    "PBat.C77_eighty",
    "PBat.C77_case",
    "PBat.C77_wild",
    "PBat.C77_quote",
    "PBat.C77_blank",
    "PBat.C77_cut",
    "PBat.C77_overlap"
   ],
   "note": "Words without quotes (or the cursor at the closing quote), files that begin with the text as typed, added text that is UTF-8 and not shorter than the rest of the line, names not 80 bytes long. Missing: C77_eighty, C77_case, C77_wild, C77_quote, C77_blank, C77_cut, C77_overlap."
  },
  {
   "property": "C78",
   "status": "partial",
   "theorems": [
    "PBat.C78_program_partial",
    "PBat.C78_fails",
    "PBat.C78_missing",
    "PBat.C78_script_partial",
    "PBat.C78_arguments",
    "PBat.C78_again",
    "PBat.C78_blank",
    "PBat.C78_signal",
    "PBat.C78_start_code",
    "PBat.C78_twice",
    "PBat.C78_star"
   ],
   "note": "Arguments without caret, percent and exclamation mark (what others become is C78_arguments); programs that end with a code. Missing: C78_signal, C78_start_code, C78_twice, C78_star."
  },
  {
   "property": "C79",
   "status": "partial",
   "theorems": [
    "PBat.C79_rows_partial",
    "PBat.C79_plain_rows",
    "PBat.C79_pages_partial",
    "PBat.C79_keys_partial",
    "PBat.C79_enter",
    "PBat.C79_unset",
    "PBat.C79_lost",
    "PBat.C79_split",
    "PBat.C79_tab_zero",
    "PBat.C79_cut",
    "PBat.C79_plus",
    "PBat.C79_plus_rows",
    "PBat.C79_left_over"
   ],
   "note": "Texts without empty line after a full row, without character of several bytes in the last column, last line without newline not full. Missing: C79_lost, C79_left_over, C79_split, C79_tab_zero, C79_unset, C79_cut, C79_plus, C79_plus_rows. Not modelled: reading of the options, the search for files, the display of the prompt."
  },
  {
   "property": "C80",
   "status": "partial",
   "theorems": [
    "PBat.C80_history_partial",
    "PBat.C80_category_partial",
    "PBat.C80_codes",
    "PBat.C80_language",
    "PBat.C80_magic",
    "PBat.C80_short",
    "PBat.C80_unterminated",
    "PBat.C80_minus",
    "PBat.C80_negative",
    "PBat.C80_edge",
    "PBat.C80_big_endian",
    "PBat.C80_long",
    "PBat.C80_spanish",
    "PBat.C80_mixed",
    "PBat.C80_locale"
   ],
   "note": "Files that are catalogues (little-endian), names of at most 99 characters. Missing: C80_magic, C80_short, C80_unterminated, C80_minus, C80_negative, C80_edge, C80_big_endian, C80_long, C80_spanish, C80_mixed, C80_locale."
  },
  {
   "property": "C81",
   "status": "partial",
   "theorems": [
    "PBat.C81_script_partial",
    "PBat.C81_arguments_partial",
    "PBat.C81_command_partial",
    "PBat.C81_variable",
    "PBat.C81_absolute",
    "PBat.C81_absolute_modes",
    "PBat.C81_redirections",
    "PBat.C81_quiet",
    "PBat.C81_empty",
    "PBat.C81_comma",
    "PBat.C81_whole",
    "PBat.C81_refused",
    "PBat.C81_delayed",
    "PBat.C81_help",
    "PBat.C81_variable_missing",
    "PBat.C81_empty_word"
   ],
   "note": "Relative script names or // before the name, plain words. Missing: C81_absolute, C81_absolute_modes, C81_redirections, C81_quiet, C81_empty, C81_comma, C81_whole, C81_delayed (delayed expansion is always on)."
  },
  {
   "property": "C82",
   "status": "partial",
   "theorems": [
    "PBat.C82_program_partial",
    "PBat.C82_script_partial",
    "PBat.C82_command_partial",
    "PBat.C82_thread_partial",
    "PBat.C82_title",
    "PBat.C82_errors",
    "PBat.C82_node",
    "PBat.C82_alone",
    "PBat.C82_min",
    "PBat.C82_absolute",
    "PBat.C82_command_words",
    "PBat.C82_exe",
    "PBat.C82_status",
    "PBat.C82_twice",
    "PBat.C82_thread_twice"
   ],
   "note": "With /B or without a start script; words without caret, percent and exclamation marks; relative script names; plain words for commands; interpreter path without blanks. Missing: C82_node, C82_alone, C82_min, C82_absolute, C82_command_words, C82_exe, C82_status, C82_twice, C82_thread_twice."
  },
  {
   "property": "C83",
   "status": "partial",
   "theorems": [
    "PBat.C83_defined",
    "PBat.C83_found",
    "PBat.C83_history_partial",
    "PBat.C83_removed",
    "PBat.C83_blanks"
   ],
   "note": "Histories that remove no inherited variable (C83_history_partial); every variable always reaches the program (C83_defined). Missing: C83_removed, C83_blanks."
  },
  {
   "property": "C84",
   "status": "partial",
   "theorems": [
    "PBat.C84_copy",
    "PBat.C84_parallel",
    "PBat.C84_ending",
    "PBat.C84_exit_partial",
    "PBat.C84_exit_in_call",
    "PBat.C84_endlocal"
   ],
   "note": "C84_copy, C84_parallel and C84_ending for all interleavings of commands that change loop variables, arguments, directory stack, SETLOCAL/ENDLOCAL and settings; C84_exit_partial for the end outside of CALL. Missing: C84_exit_in_call, C84_endlocal; SET itself is modelled on values (C08), not on memory cells."
  },
  {
   "property": "C85",
   "status": "partial",
   "theorems": [
    "PBat.C85_names_partial",
    "PBat.C85_listing_partial",
    "PBat.C85_here_partial",
    "PBat.C85_deep_partial",
    "PBat.C85_help",
    "PBat.C85_second",
    "PBat.C85_broken_link",
    "PBat.C85_large",
    "PBat.C85_root"
   ],
   "note": "C85_names_partial, C85_listing_partial (any search), C85_here_partial and C85_deep_partial (current directory, with the contents of the file system), C85_help, C85_second. Missing: C85_root, C85_broken_link, C85_large; names of devices; attributes treated wrongly by the filter (C34)."
  },
  {
   "property": "C86",
   "status": "partial",
   "theorems": [
    "PBat.C86_rows_partial",
    "PBat.C86_last_partial",
    "PBat.C86_nothing_lost_partial",
    "PBat.C86_files_partial",
    "PBat.C86_input_partial",
    "PBat.C86_stop_partial",
    "PBat.C86_short",
    "PBat.C86_format",
    "PBat.C86_absolute",
    "PBat.C86_float",
    "PBat.C86_double",
    "PBat.C86_negative",
    "PBat.C86_pipe",
    "PBat.C86_error",
    "PBat.C86_default"
   ],
   "note": "C86_rows_partial, C86_last_partial, C86_nothing_lost_partial, C86_files_partial, C86_input_partial, C86_stop_partial. Missing because the code does otherwise: C86_short, C86_format, C86_absolute, C86_float, C86_double, C86_negative, C86_pipe, C86_error, C86_default."
  },
  {
   "property": "C87",
   "status": "partial",
   "theorems": [
    "PBat.C87_static_partial",
    "PBat.C87_forever",
    "PBat.C87_paragraph_partial",
    "PBat.C87_exact_word",
    "PBat.C87_long_word",
    "PBat.C87_levels",
    "PBat.C87_wrapped",
    "PBat.C87_static_laid",
    "PBat.C87_page_partial"
   ],
   "note": "C87_static_partial, C87_paragraph_partial, C87_page_partial, C87_wrapped, C87_static_laid. Missing because the code does otherwise: C87_forever, C87_exact_word, C87_long_word, C87_levels."
  },
  {
   "property": "C88",
   "status": "partial",
   "theorems": [
    "PBat.C88_page_partial",
    "PBat.C88_parts",
    "PBat.C88_run_partial",
    "PBat.C88_comments",
    "PBat.C88_comments_mark",
    "PBat.C88_open_escaped",
    "PBat.C88_code_escape",
    "PBat.C88_heading_blank",
    "PBat.C88_last_backslash",
    "PBat.C88_escaped_line"
   ],
   "note": "C88_page_partial (any output that decorates texts; C88_parts), C88_run_partial, C88_comments, C88_comments_mark. Missing because the code does otherwise: C88_open_escaped, C88_code_escape, C88_heading_blank, C88_last_backslash, C88_escaped_line."
  },
  {
   "property": "C89",
   "status": "partial",
   "theorems": [
    "PBat.C89_no",
    "PBat.C89_asked",
    "PBat.C89_restart_partial",
    "PBat.C89_delayed",
    "PBat.C89_removed",
    "PBat.C89_blank",
    "PBat.C89_answer",
    "PBat.C89_end"
   ],
   "note": "C89_restart_partial for every history of variables. Missing: C89_delayed, C89_removed, C89_blank, C89_answer, C89_end."
  },
  {
   "property": "C90",
   "status": "partial",
   "theorems": [
    "PBat.C90_pairs",
    "PBat.C90_apart_partial",
    "PBat.C90_damaged",
    "PBat.C90_end",
    "PBat.C90_carets",
    "PBat.C90_known"
   ],
   "note": "C90_pairs is complete (any number of switches). C90_apart_partial: scripts with nothing to separate. Missing: C90_damaged, C90_end, C90_carets."
  },
  {
   "property": "C91",
   "status": "partial",
   "theorems": [
    "PBat.C91_page_partial",
    "PBat.C91_dash",
    "PBat.C91_line",
    "PBat.C91_target",
    "PBat.C91_quote",
    "PBat.C91_title"
   ],
   "note": "Pages as in C88 without escaped ends of lines in paragraphs, quotes or escaped characters in targets, or texts that begin with -. Missing: C91_dash, C91_line, C91_quote, C91_target, C91_title."
  },
  {
   "property": "C92",
   "status": "partial",
   "theorems": [
    "PBat.C92_wait_partial",
    "PBat.C92_refused",
    "PBat.C92_help",
    "PBat.C92_negative",
    "PBat.C92_missing",
    "PBat.C92_zero",
    "PBat.C92_short",
    "PBat.C92_words"
   ],
   "note": "C92_wait_partial: every duration up to 100000 seconds is kept within a thousandth or two of a second, for every line and every key. C92_refused, C92_help, C92_negative. Missing: exact durations (C92_short), and the violations C92_missing, C92_zero, C92_words. Not modelled: messages; input that is no terminal."
  },
  {
   "property": "C93",
   "status": "partial",
   "theorems": [
    "PBat.Spec.C93_progress",
    "PBat.Spec.C93_connected_partial",
    "PBat.Spec.C93_end_of_file",
    "PBat.Spec.C93_readers_partial",
    "PBat.Spec.C93_restored_partial",
    "PBat.Spec.C93_unfinished",
    "PBat.Spec.C93_leak",
    "PBat.Spec.C93_stuck"
   ],
   "note": "C93_progress and C93_end_of_file: all commands, all orders. C93_connected_partial: without `> f` inside a command that has `2>&1` (C45). C93_readers_partial, C93_restored_partial: EXIT not in the loop of FOR /F (C93_leak) and not in the main script. C93_unfinished: the script does not wait for the left side. Not modelled: failing system calls (no descriptors left), the contents of the pipes, external programs."
  },
  {
   "property": "C94",
   "status": "partial",
   "theorems": [
    "PBat.Spec.C94_fgets_partial",
    "PBat.Spec.C94_lost",
    "PBat.Spec.C94_swallowed",
    "PBat.Spec.C94_fgetc_partial",
    "PBat.Spec.C94_negative"
   ],
   "note": "C94_fgets_partial: every encoding, text and sizes, for texts whose last character is one byte of UTF-8 (such as an end of line). C94_fgetc_partial. Missing because violated: C94_lost, C94_swallowed, C94_negative. iconv is a contract; read errors are not modelled."
  },
  {
   "property": "C95",
   "status": "partial",
   "theorems": [
    "PBat.Spec.C95_converted",
    "PBat.Spec.C95_there_and_back",
    "PBat.Spec.C95_pieces_partial",
    "PBat.Spec.C95_split",
    "PBat.Spec.C95_unreported",
    "PBat.Spec.C95_printf_partial",
    "PBat.Spec.C95_printf_lost",
    "PBat.Spec.C95_shifted"
   ],
   "note": "C95_converted, C95_there_and_back: all texts. C95_pieces_partial: pieces of whole characters (C95_split otherwise). C95_printf_partial: up to 512 bytes (C95_printf_lost). Missing because violated: errors reported (C95_unreported), unpaired surrogates left out (C95_shifted). iconv is a contract."
  },
  {
   "property": "C96",
   "status": "partial",
   "theorems": [
    "PBat.C96_edit_partial",
    "PBat.C96_history_partial",
    "PBat.C96_input_partial",
    "PBat.C96_dropped",
    "PBat.C96_dropped_high",
    "PBat.C96_broken",
    "PBat.C96_no_history",
    "PBat.C96_no_room",
    "PBat.C96_overlap",
    "PBat.C96_unasked",
    "PBat.C96_history_damaged",
    "PBat.C96_lines_end"
   ],
   "note": "C96_edit_partial: all sequences of keys in which the arrows go over characters of one byte, DOWN is used with a history, a completion is not shorter than what is behind the cursor and the line is shorter than the buffer. C96_history_partial: fewer than fifty lines. C96_input_partial: units without a bit of D800, and true pairs. All else is violated. The screen is not modelled."
  },
  {
   "property": "C97",
   "status": "partial",
   "theorems": [
    "PBat.Box.C97_batbox_partial",
    "PBat.Box.C97_other",
    "PBat.Box.C97_key_name",
    "PBat.Box.C97_cursor",
    "PBat.Box.C97_confused",
    "PBat.Box.C97_escape",
    "PBat.Box.C97_function_key",
    "PBat.Box.C97_lead_byte",
    "PBat.Box.C97_no_double",
    "PBat.Box.C97_release",
    "PBat.Box.C97_capitals",
    "PBat.Box.C97_closed"
   ],
   "note": "C97_batbox_partial: all sequences of /a /d /g /o /n /w /c /k_ (no key) /m /m_ /y with names or without, ended by the words or by /k without name and a key of one byte. /k with a name and /h are violated for all arguments; keys sending escape sequences, double clicks, releases and capitals are violated. The modes of the terminal are not modelled; the output is a terminal."
  },
  {
   "property": "C98",
   "status": "partial",
   "theorems": [
    "PBat.Err.C98_message_partial",
    "PBat.Err.C98_table",
    "PBat.Err.C98_reason",
    "PBat.Err.C98_conversions",
    "PBat.Err.C98_null",
    "PBat.Err.C98_bound"
   ],
   "note": "C98_message_partial: all messages with one hole or none, all texts, all colours, with a reason only on a terminal. The rest is violated for all arguments. C98_table shows that 57 of the 62 messages have that form. Translations are tables of the same kind and are not checked; writing is supposed to succeed."
  },
  {
   "property": "C99",
   "status": "partial",
   "theorems": [
    "PBat.Cmdly.C99_run_partial",
    "PBat.Cmdly.C99_resume_partial",
    "PBat.Cmdly.C99_progress",
    "PBat.Cmdly.C99_steady",
    "PBat.Cmdly.C99_dangling",
    "PBat.Cmdly.C99_hidden",
    "PBat.Cmdly.C99_jump_partial",
    "PBat.Cmdly.C99_jump_run_partial",
    "PBat.Cmdly.C99_indented",
    "PBat.Cmdly.C99_deep",
    "PBat.Cmdly.C99_goto_partial",
    "PBat.Cmdly.C99_goto_eof",
    "PBat.Cmdly.C99_goto_fails",
    "PBat.Cmdly.C99_quiet",
    "PBat.Cmdly.C99_trailing"
   ],
   "note": "C99_run_partial, C99_resume_partial: all scripts whose lines fit their buffer when expanded and do not become labels by expansion (C99_steady: all lines not beginning with a variable). C99_jump_partial, C99_jump_run_partial, C99_goto_partial: all labels at the start of the line. The rest is violated as listed. The script is supposed not to change while it runs; interactive reading is not modelled."
  },
  {
   "property": "C100",
   "status": "partial",
   "theorems": [
    "PBat.Mods.C100_load_partial",
    "PBat.Mods.C100_call",
    "PBat.Mods.C100_again",
    "PBat.Mods.C100_stops",
    "PBat.Mods.C100_help",
    "PBat.Mods.C100_list",
    "PBat.Mods.C100_quiet",
    "PBat.Mods.C100_unloaded",
    "PBat.Mods.C100_case",
    "PBat.Mods.C100_twice",
    "PBat.Mods.C100_no_home"
   ],
   "note": "C100_load_partial: all lists of modules whose commands are new. C100_call, C100_again, C100_stops, C100_list, C100_quiet hold in full for the model. That a refused module leaves nothing is violated. dlopen is abstract: whether a file loads, and the names its handler registers."
  },
  {
   "property": "C101",
   "status": "partial",
   "theorems": [
    "PBat.C101_shows_partial",
    "PBat.C101_rows_partial",
    "PBat.C101_missing",
    "PBat.C101_help",
    "PBat.C101_slash_t",
    "PBat.C101_directories",
    "PBat.C101_unreadable",
    "PBat.C101_no_number"
   ],
   "note": "C101_shows_partial, C101_rows_partial: all lines whose names do not begin with /t and whose files can be opened. C101_missing and C101_help in full. The output is no terminal (for terminals see C79); the search of files is that of C55."
  },
  {
   "property": "C102",
   "status": "partial",
   "theorems": [
    "PBat.Win.C102_step_partial",
    "PBat.Win.C102_text",
    "PBat.Win.C102_text_d",
    "PBat.Win.C102_history_partial",
    "PBat.Win.C102_fresh",
    "PBat.Win.C102_show",
    "PBat.Win.C102_abbreviation",
    "PBat.Win.C102_enable",
    "PBat.Win.C102_root",
    "PBat.Win.C102_slash",
    "PBat.Win.C102_lost",
    "PBat.Win.C102_unchecked",
    "PBat.Win.C102_quoted",
    "PBat.Win.C102_help"
   ],
   "note": "C102_history_partial: all histories of relative paths and of paths X:\\..., with or without /d, that do not go above the root and fit the buffer. C102_fresh, C102_show, C102_text, C102_text_d, C102_abbreviation in full. Enabling a drive that has a directory is never defined when it succeeds (C102_enable). Which directories exist is a function of the place; no name contains a colon."
  },
  {
   "property": "C103",
   "status": "partial",
   "theorems": [
    "PBat.Spawn.C103_told_partial",
    "PBat.Spawn.C103_progress_partial",
    "PBat.Spawn.C103_clean_partial",
    "PBat.Spawn.C103_bounded",
    "PBat.Spawn.C103_once",
    "PBat.Spawn.C103_zombie",
    "PBat.Spawn.C103_start",
    "PBat.Spawn.C103_many",
    "PBat.Spawn.C103_signal_begin",
    "PBat.Spawn.C103_signal_wait",
    "PBat.Spawn.C103_possible"
   ],
   "note": "Proved for histories without signals, without the starting script, and with pipes numbered from 3 to 2047; outside of these the claim is false (C103_start, C103_many, C103_signal_begin, C103_signal_wait). A failing pipe, which ends the interpreter, is not modelled."
  },
  {
   "property": "C104",
   "status": "partial",
   "theorems": [
    "PBat.Buf.C104_order_partial",
    "PBat.Buf.C104_prefix_partial",
    "PBat.Buf.C104_terminal_partial",
    "PBat.Buf.C104_commands_partial",
    "PBat.Buf.C104_program_first",
    "PBat.Buf.C104_twice",
    "PBat.Buf.C104_lost",
    "PBat.Buf.C104_errors",
    "PBat.Buf.C104_emptied",
    "PBat.Buf.C104_message"
   ],
   "note": "Proved for every history on a terminal, for every history of commands and redirections, and for histories with programs, START and Ctrl-C as long as nothing printed by commands waits for the same file; otherwise false (six witnesses for arbitrary texts). Pipelines and FOR /F, which run in other threads, are not modelled here."
  },
  {
   "property": "C105",
   "status": "partial",
   "theorems": [
    "PBat.C105_screen_partial",
    "PBat.C105_enter_partial",
    "PBat.C105_prompt",
    "PBat.C105_bell",
    "PBat.C105_narrow"
   ],
   "note": "Proved for every sequence of keys (those C74 covers) while the line holds no control character, on terminals of at least three columns; after Ctrl-L with the line in the top row and the prompt gone. The list of files of Tab, scrolling and a terminal that does not report its cursor are not modelled."
  },
  {
   "property": "C106",
   "status": "partial",
   "theorems": [
    "PBat.Tty.C106_lines_partial",
    "PBat.Tty.C106_taken_partial",
    "PBat.Tty.C106_column",
    "PBat.Tty.C106_possible",
    "PBat.Tty.C106_modes_partial",
    "PBat.Tty.C106_pause_partial",
    "PBat.Tty.C106_one_key",
    "PBat.Tty.C106_left",
    "PBat.Tty.C106_ahead",
    "PBat.Tty.C106_paste",
    "PBat.Tty.C106_race",
    "PBat.Tty.C106_answered",
    "PBat.Tty.C106_timeout",
    "PBat.Tty.C106_break",
    "PBat.Tty.C106_skipped",
    "PBat.Tty.C106_escape"
   ],
   "note": "Proved for all interleavings in which keys are typed at the prompt, one line at a time, and (for the modes) without TIMEOUT and without Ctrl-C or the end while a key is waited for; C106_possible shows that every sequence of lines can be entered so. The violations are proved in general."
  },
  {
   "property": "C107",
   "status": "partial",
   "theorems": [
    "PBat.Help.C107_own_partial",
    "PBat.Help.C107_asked_partial",
    "PBat.Help.C107_unasked_partial",
    "PBat.Help.C107_small",
    "PBat.Help.C107_title_partial",
    "PBat.Help.C107_cls",
    "PBat.Help.C107_move",
    "PBat.Help.C107_lost",
    "PBat.Help.C107_longer",
    "PBat.Help.C107_blank_title",
    "PBat.Help.C107_junk",
    "PBat.Help.C107_pause_blanks",
    "PBat.Help.C107_md"
   ],
   "note": "Proved for all commands but MOVE, REN, REM and CHCP, for which the violations are proved. HELP itself is an alias of a script and not modelled; of the commands other than the small ones only the test for /? is modelled here."
  },
  {
   "property": "C108",
   "status": "partial",
   "theorems": [
    "PBat.C108_safe_partial",
    "PBat.C108_line_partial",
    "PBat.C108_others",
    "PBat.C108_freed_partial",
    "PBat.C108_all_freed",
    "PBat.C108_script",
    "PBat.C108_else",
    "PBat.C108_unknown",
    "PBat.C108_bare",
    "PBat.C108_junk",
    "PBat.C108_pipe",
    "PBat.C108_left"
   ],
   "note": "No undefined behaviour: for all lines if malloc returns zeros where FOR without a line looks, and for all lines that do not run FOR so whatever it returns. What is lost is counted exactly for all lines; nothing is lost when none of the four cases and no EXIT occurs. The memory of the commands that run no line, the stack of streams and the variables of macros are not modelled."
  },
  {
   "property": "C109",
   "status": "partial",
   "theorems": [
    "PBat.In.C109_partial",
    "PBat.In.C109_files",
    "PBat.In.C109_shared",
    "PBat.In.C109_program_partial",
    "PBat.In.C109_aside",
    "PBat.In.C109_end",
    "PBat.In.C109_second",
    "PBat.In.C109_other_file",
    "PBat.In.C109_again",
    "PBat.In.C109_pipe_mixed",
    "PBat.In.C109_pipe_lost",
    "PBat.In.C109_program"
   ],
   "note": "C109_files proves the full statement for files with a library as the comment in the code expects; C109_partial for every library and every history in which nothing is pending when the input changes. Terminals are left out (C106)."
  },
  {
   "property": "C110",
   "status": "partial",
   "theorems": [
    "PBat.Flow.C110_result",
    "PBat.Flow.C110_prefix",
    "PBat.Flow.C110_bounded",
    "PBat.Flow.C110_room",
    "PBat.Flow.C110_ends_partial",
    "PBat.Flow.C110_apart",
    "PBat.Flow.C110_small",
    "PBat.Flow.C110_locks",
    "PBat.Flow.C110_deadlock"
   ],
   "note": "Result, prefix and bound for all pipelines and orders; the end is reached (C110_apart, C110_small, C110_ends_partial) unless two members take the same lock and one of them writes more than the pipe holds, in which case the violation is proved."
  },
  {
   "property": "C111",
   "status": "partial",
   "theorems": [
    "PBat.Prog.C111_script_partial",
    "PBat.Prog.C111_file_partial",
    "PBat.Prog.C111_refused"
   ],
   "note": "For scripts of commands joined by operators, with redirections and pipelines; blocks, IF, FOR and calls inside the lines are covered by C40, C43, C44, C46, not by this composition; a line left by GOTO or EXIT in the middle must have no pipes (C46 shows what happens otherwise)."
  },
  {
   "property": "C112",
   "status": "partial",
   "theorems": [
    "PBat.C112_lines_partial",
    "PBat.C112_block_partial",
    "PBat.C112_behind",
    "PBat.C112_ends",
    "PBat.C112_nested_blank",
    "PBat.C112_operator_blank",
    "PBat.C112_quote_crash"
   ],
   "note": "Proved for every block whose lines (but the last) do not end with blanks after an operator or nested block; the other cases violate the statement, which is proved in general (C112_nested_blank, C112_operator_blank). A failing assertion is shown for one text (C112_quote_crash). Lines of @ only are excluded."
  },
  {
   "property": "C113",
   "status": "partial",
   "theorems": [
    "PBat.Prog.C113_line_partial",
    "PBat.Prog.C113_script_partial",
    "PBat.Prog.C113_else_redirection",
    "PBat.Prog.C113_if_rest",
    "PBat.Prog.C113_unique",
    "PBat.Prog.C113_for_if"
   ],
   "note": "Proved for lines of the grammar with blocks, operators, pipelines and redirections, IF, FOR and CALL. Missing: IF and FOR in the rest of the line of FOR (violated, C113_for_if); IF and FOR as later members of a pipeline; redirections of one output to the other on a block or CALL (violated, C45); lines left just before a pipeline of several commands; the lines of blocks that C112 excludes. C113_unique: the meaning of a text does not depend on how the grammar reads it."
  },
  {
   "property": "C114",
   "status": "partial",
   "theorems": [
    "PBat.C114_yes_partial",
    "PBat.C114_nothing",
    "PBat.C114_else_partial",
    "PBat.C114_same_partial",
    "PBat.C114_junk",
    "PBat.C114_parenthesis"
   ],
   "note": "Proved for all texts of the grammar whose lines are those of C112_lines_partial; a whole command with == by C114_same_partial. Violated for text behind the block (C114_junk, general) and for commands with a closing parenthesis (C114_parenthesis, general)."
  },
  {
   "property": "C115",
   "status": "partial",
   "theorems": [
    "PBat.Prog.C115_if",
    "PBat.Prog.C115_for",
    "PBat.Prog.C115_usual",
    "PBat.Prog.C115_call_partial",
    "PBat.Prog.C115_if_object",
    "PBat.Prog.C115_if_same",
    "PBat.Prog.C115_if_number"
   ],
   "note": "Proved for the commands pBat starts with. Missing: tables changed by DEF; CALL followed by a semicolon; of the conditions, bracketed expressions (C27 gives their values) and comparisons with == of two texts that both may begin a number. With ELSE the block of a condition that holds loses its redirections and the rest of the line (C113_else_redirection); NOT is ignored in front of the operators other than == (C49_not_ignored)."
  },
  {
   "property": "C116",
   "status": "partial",
   "theorems": [
    "PBat.Prog.C116_head",
    "PBat.Prog.C116_for_l_partial",
    "PBat.Prog.C116_for_set_partial",
    "PBat.Prog.C116_refused"
   ],
   "note": "FOR /L is proved for positive steps and ends at least one step below the greatest integer (C22 shows what happens otherwise) and three numbers; sets for chunks separated by blanks (C71_colon shows what the colon does) without wildcards; both for no IF or FOR in the rest of the line (C113_for_if shows why). Missing: the values of FOR /F, /R and /D and of wildcards in the same end-to-end form."
  },
  {
   "property": "C117",
   "status": "partial",
   "theorems": [
    "PBat.Prog.C117_goto_partial",
    "PBat.Prog.C117_eof",
    "PBat.Prog.C117_block_partial",
    "PBat.Prog.C117_script_partial",
    "PBat.Prog.C117_if_partial",
    "PBat.Prog.C117_script_eof"
   ],
   "note": "C117_goto_partial and C117_eof are about the command wherever it stands; C117_block_partial is about rows of blocks; C117_if_partial is about GOTO behind IF without ELSE; C117_script_partial and C117_script_eof about lines of scripts, without redirections on GOTO and without a pipe behind it. The script has not changed since it was read (C18 is about the changes). Labels that are missing have undefined behaviour (C19). Missing: options, names of several words, and names behind a semicolon (C21)."
  }
 ]
}