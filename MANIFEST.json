{
"claims": [
{
"property": "C01",
"status": "proved",
"theorems": [
"Ms.Properties.C01_laymine",
"Ms.Properties.C01_laymine_panics",
"Ms.Properties.C01_laymine_all_layouts",
"Ms.Properties.C01_laymine_injective"
],
"note": "over every permutation the shuffle may return; reachability of every layout included"
},
{
"property": "C02",
"status": "partial",
"theorems": [
"Ms.Properties.C02_laymine_op_partial",
"Ms.Properties.C02_laymine_op_all_layouts",
"Ms.Properties.C02_laymine_op_refuted"
],
"note": "proved for row,column>=2; the one-row/one-column clause is false of the code (index out of bounds panic) and is refuted for all shuffles"
},
{
"property": "C03",
"status": "proved",
"theorems": [
"Ms.Properties.C03_cal_board_numbers"
],
"note": ""
},
{
"property": "C04",
"status": "proved",
"theorems": [
"Ms.Properties.C04_cal_op"
],
"note": "termination and component count"
},
{
"property": "C05",
"status": "proved",
"theorems": [
"Ms.Properties.C05_cal_isl"
],
"note": ""
},
{
"property": "C06",
"status": "proved",
"theorems": [
"Ms.Properties.C06_cal_cell_nums",
"Ms.Properties.C06_cal_cell_nums_panics",
"Ms.Properties.C06_total"
],
"note": ""
},
{
"property": "C07",
"status": "proved",
"theorems": [
"Ms.Properties.C07_cal_bbbv",
"Ms.Properties.C07_cal_bbbv_least"
],
"note": ""
},
{
"property": "C08",
"status": "partial",
"theorems": [
"Ms.Properties.C08_getters_refuted",
"Ms.Properties.C08_getters_partial",
"Ms.Properties.C08_getters_right_partial"
],
"note": "false of the code: the cache flags are set without storing the values; exact behaviour of every call history proved"
},
{
"property": "C09",
"status": "partial",
"theorems": [
"Ms.Properties.C09_bbbv_exp_partial",
"Ms.Properties.C09_bbbv_exp_refuted"
],
"note": "false of the code (zero cells are never labelled): refuted on a one-mine expert board; exact condition for agreement, lower bound and absence of panics proved"
},
{
"property": "C10",
"status": "proved",
"theorems": [
"Ms.Properties.C10_refresh_board",
"Ms.Properties.C10_flags_block",
"Ms.Properties.C10_out_of_range"
],
"note": "refresh_board: full functional specification (exactly the cascade opens, flags block, panics only out of range), no bound on the board."
},
{
"property": "C100",
"status": "proved",
"theorems": [
"Ms.Properties.C100_chance",
"Ms.Properties.C100_opening",
"Ms.Properties.C100_counting",
"Ms.Properties.C100_wrong_flag",
"Ms.Properties.exSecret_chance"
],
"note": ""
},
{
"property": "C101",
"status": "proved",
"theorems": [
"Ms.Properties.C101_never_loses",
"Ms.Properties.C101_wins",
"Ms.Properties.C101_solvable",
"Ms.Properties.C101_no_dead_end",
"Ms.Properties.C101_noGuess",
"Ms.Properties.C101_won",
"Ms.Properties.C101_best",
"Ms.Properties.C101_advice",
"Ms.Properties.C101_table_honest",
"Ms.Properties.C101_table_helpful",
"Ms.Properties.C101_table",
"Ms.Properties.exCount_noGamble",
"Ms.Properties.exCount_guess",
"Ms.Properties.exCount_program",
"Ms.Properties.C101_faultless",
"Ms.Properties.C101_optimal",
"Ms.Properties.C101_table_best",
"Ms.Properties.C101_laid",
"Ms.Properties.C101_laid_thread",
"Ms.Properties.exCount_best",
"Ms.Properties.exCoin_none"
],
"note": ""
},
{
"property": "C102",
"status": "proved",
"theorems": [
"Ms.Properties.C102_risk",
"Ms.Properties.C102_below_one",
"Ms.Properties.C102_needless",
"Ms.Properties.C102_high_risk",
"Ms.Properties.C102_survive",
"Ms.Properties.C102_chord",
"Ms.Properties.C102_chord_free",
"Ms.Properties.coin_risk"
],
"note": ""
},
{
"property": "C103",
"status": "proved",
"theorems": [
"Ms.Properties.C103_no_risk",
"Ms.Properties.C103_no_comment",
"Ms.Properties.C103_survives",
"Ms.Properties.C103_applies"
],
"note": ""
},
{
"property": "C104",
"status": "proved",
"theorems": [
"Ms.Properties.C104_play",
"Ms.Properties.C104_counts",
"Ms.Properties.C104_risk",
"Ms.Properties.C104_comments",
"Ms.Properties.C104_survive",
"Ms.Properties.C104_applies"
],
"note": ""
},
{
"property": "C11",
"status": "proved",
"theorems": [
"Ms.Properties.C11_safe_board",
"Ms.Properties.C11_generic_metrics",
"Ms.Properties.C11_safe_board_set",
"Ms.Properties.C11_nine_becomes_ten",
"Ms.Properties.C11_iterator_refuted",
"Ms.Properties.C11_iterate_rows",
"Ms.Properties.C11_iterate_cells_refuted"
],
"note": "all mask draws, all cell values -3..16 except the unused 9 (9 reads back as 10, proved); iterating the rows of a board hands out the rows of the plain board; the cell iterator of a row yields raw codes, never the cell (refuted separately)"
},
{
"property": "C12",
"status": "proved",
"theorems": [
"Ms.Properties.C12_game_board_never_lies",
"Ms.Properties.C12_board_fixed"
],
"note": "Invariant over all reachable states (any steps, resets, set_board before the game)."
},
{
"property": "C13",
"status": "partial",
"theorems": [
"Ms.Properties.C13_win_iff",
"Ms.Properties.C13_playing",
"Ms.Properties.C13_set_board_refuted"
],
"note": "Proved for all reachable states when set_board is used only before play; refuted for set_board during play (stale scan pointer)."
},
{
"property": "C14",
"status": "proved",
"theorems": [
"Ms.Properties.C14_loss_iff"
],
"note": "Loss iff an opened mine is shown, in all reachable states."
},
{
"property": "C15",
"status": "proved",
"theorems": [
"Ms.Properties.C15_terminal_frozen",
"Ms.Properties.C15_terminal_frozen_flow"
],
"note": "Terminal states are fixed points of step and step_flow."
},
{
"property": "C16",
"status": "proved",
"theorems": [
"Ms.Properties.C16_flag_counter"
],
"note": "flag = number of cells showing 11/14."
},
{
"property": "C17",
"status": "partial",
"theorems": [
"Ms.Properties.C17_no_panic_partial",
"Ms.Properties.C17_refuted"
],
"note": "No panic in all runs whose right presses during play are on the board; refuted otherwise (right counter underflow)."
},
{
"property": "C18",
"status": "partial",
"theorems": [
"Ms.Properties.C18_reset_partial",
"Ms.Properties.C18_reset_fields_partial",
"Ms.Properties.C18_refuted"
],
"note": "reset restores everything but pre_flag_num and middle_hold; refuted as stated."
},
{
"property": "C19",
"status": "proved",
"theorems": [
"Ms.Properties.C19_step_flow_append",
"Ms.Properties.C19_step_flow_ok",
"Ms.Properties.C19_step_flow_err"
],
"note": "step_flow is the iteration of step, stops at first Err keeping the state."
},
{
"property": "C20",
"status": "proved",
"theorems": [
"Ms.Properties.C20_level"
],
"note": "Level 0..3/Err describe the effect in every reachable Playing state."
},
{
"property": "C21",
"status": "partial",
"theorems": [
"Ms.Properties.C21_ce_le_clicks_partial",
"Ms.Properties.C21_flag_counts_once",
"Ms.Properties.C21_refuted"
],
"note": "ce<=clicks for runs that never return to Ready with ce>0 and press right on board; refuted in general; flagging ce at most once per cell during play proved."
},
{
"property": "C22",
"status": "partial",
"theorems": [
"Ms.Properties.C22_win_ge_partial",
"Ms.Properties.C22_solved_partial",
"Ms.Properties.C22_solved_shown_partial",
"Ms.Properties.C22_refuted"
],
"note": "At win bbbv_solved>=3BV always; equality and <= when no zero is flagged while opening; refuted in general."
},
{
"property": "C23",
"status": "proved",
"theorems": [
"Ms.Properties.C23_evf_roundtrip",
"Ms.Properties.C23_generate_panics_iff"
],
"note": "Round trip for every record within the field widths (sizes 1..255 rows, <256 columns, u16/u24 fields, no zero byte inside strings, the nine mouse events). Also: exact panic condition of the generator. Times are integral milliseconds."
},
{
"property": "C24",
"status": "partial",
"theorems": [
"Ms.Properties.C24_parse_total_partial",
"Ms.Properties.C24_panic_iff",
"Ms.Properties.C24_refuted",
"Ms.Properties.C24_truncation"
],
"note": "Truncation part proved in full (every proper prefix of the whole file). Totality is false as stated: a complete header with height byte 0 makes cal_board_numbers panic (C24_refuted); C24_panic_iff characterises exactly the inputs that panic, C24_parse_total_partial gives Ok/Err for all others."
},
{
"property": "C25",
"status": "proved",
"theorems": [
"Ms.Properties.C25_set_checksum",
"Ms.Properties.C25_refused_before_end"
],
"note": "All call sequences after a generation on a finished game; before the end the call is refused."
},
{
"property": "C26",
"status": "proved",
"theorems": [
"Ms.Properties.is_solvable_sound",
"Ms.Properties.openable_no_mine",
"Ms.Properties.is_solvable_complete",
"Ms.Properties.is_solvable_exact_small",
"Ms.Properties.is_solvable_incomplete"
],
"note": "Total, sound (every board >=3x3, every safe start), complete for starts showing 0 up to the enumeration limit of 55; is_solvable_incomplete shows the zero start is needed. The number of mines is not part of what the player sees, as documented by the code."
},
{
"property": "C27",
"status": "proved",
"theorems": [
"Ms.Properties.solve_minus_exact",
"Ms.Properties.solve_minus_unsat_example",
"Ms.Properties.solve_minus_finds"
],
"note": "Exact equivalence, no panic, marks, for every satisfiable system. On unsatisfiable systems the equivalence is false (solve_minus_unsat_example). Completeness: solve_minus_finds (exactly the cells of SpecRounds.pairs)."
},
{
"property": "C28",
"status": "proved",
"theorems": [
"Ms.Properties.solve_direct_exact",
"Ms.Properties.solve_direct_result",
"Ms.Properties.solve_direct_finds"
],
"note": "Exact equivalence on satisfiable systems, no panic; on arbitrary systems Ok is exact and Err implies unsatisfiable. Finding: panics on some unsatisfiable systems. Completeness: solve_direct_finds (exactly the cells of SpecRounds.singles)."
},
{
"property": "C29",
"status": "partial",
"theorems": [
"Ms.Properties.solve_enumerate_exact_partial",
"Ms.Properties.solve_enumerate_mines",
"Ms.Properties.solve_enumerate_incomplete"
],
"note": "safe cells exact, mines sound; mines complete only for cells without a twin column: full completeness is false of the code (solve_enumerate_incomplete)"
},
{
"property": "C30",
"status": "proved",
"theorems": [
"Ms.Properties.refresh_matrixs_exact",
"Ms.Properties.refresh_matrixs_consistent",
"Ms.Properties.refresh_matrixs_counts",
"Ms.Properties.refresh_matrix_exact"
],
"note": "refresh_matrixs: exact for every board (numbers touching a covered cell); consistent boards: exactly the consistent layouts; counters exact. refresh_matrix: exact for positive numbers (it ignores shown zeros, unlike refresh_matrixs)."
},
{
"property": "C31",
"status": "proved",
"theorems": [
"Ms.Properties.chunk_matrix_exact",
"Ms.Properties.chunk_matrix_panics_iff",
"Ms.Properties.chunk_matrixes_exact",
"Ms.Properties.blocks_independent",
"Ms.Properties.chunk_matrix_blocks",
"Ms.Properties.chunk_matrixes_blocks"
],
"note": "Full: solutions, cell partition, shape of the blocks, independence, and the exact panic condition (an equation without cells). Equations kept, blocks are the connected groups: chunk_matrix_blocks, chunk_matrixes_blocks."
},
{
"property": "C32",
"status": "proved",
"theorems": [
"Ms.Properties.cal_possibility_exact",
"Ms.Properties.cal_possibility_onboard_exact",
"Ms.Properties.cal_is_op_possibility_exact",
"Ms.Properties.layouts_all",
"Ms.Properties.inReach_small",
"Ms.Properties.cal_possibility_contradiction",
"Ms.Properties.cal_possibility_too_few_mines",
"Ms.Properties.cal_possibility_density_panics",
"Ms.Properties.cal_possibility_total"
],
"note": "cal_possibility / cal_possibility_onboard / cal_is_op_possibility_cells over exact rationals in place of f64 (rounding and exponent overflow are not modelled). The hypothesis on the board is only that some layout satisfies the numbers next to covered cells; the complementary case is cal_possibility_contradiction. Blocks over 55 cells are averaged over, as documented; layouts_all and inReach_small say when layouts is all consistent layouts. Findings: a density below the marked mines panics; too many mines yields NaN; an opening chance of 0 can be returned as NaN."
},
{
"property": "C33",
"status": "proved",
"theorems": [
"Ms.Properties.enum_table_exact",
"Ms.Properties.enum_table_unsat",
"Ms.Properties.enum_table_limit",
"Ms.Properties.enum_amount_fits",
"Ms.Properties.enum_counts_fit",
"Ms.Properties.enum_table_negative",
"Ms.Properties.enum_table_ok"
],
"note": "for blocks with 0/1 coefficients and at most 8 cells per equation (what refresh_matrixs builds): exact tables when the right-hand sides are not negative; with a negative one (too many flags around a number) never a table, but Err(1), Err(5) or a panic (all three occur); so every returned table is exact (enum_table_ok); counts fit usize for at most 55 cells"
},
{
"property": "C34",
"status": "proved",
"theorems": [
"Ms.Properties.laymine_solvable_spec",
"Ms.Properties.laymine_solvable_thread_sound",
"Ms.Properties.laymine_solvable_thread_terminates",
"Ms.Properties.laymine_solvable_thread_loses"
],
"note": "Transition system of the 8 threads (mutex, flag, channel); every interleaving. laymine_solvable_thread_loses: a schedule in which a solvable board was found but (another board,false) is returned, because the first message is taken."
},
{
"property": "C35",
"status": "proved",
"theorems": [
"Ms.Properties.unsolvable_structure_exact",
"Ms.Properties.unsolvable_structure_ambiguous",
"Ms.Properties.unsolvable_structure_sound"
],
"note": "Exact characterisation, ambiguity and consequence for players, for every board of at least 3x3 (smaller boards: index underflow in the code, not modelled)."
},
{
"property": "C36",
"status": "proved",
"theorems": [
"Ms.Properties.C36_legalize",
"Ms.Properties.C36_legalize_fixed"
],
"note": ""
},
{
"property": "C37",
"status": "partial",
"theorems": [
"Ms.Properties.C37_good_chording_partial",
"Ms.Properties.C37_good_chording_refuted",
"Ms.Properties.C37_panics_iff"
],
"note": "exact outside the last column; in the last column the call panics (guard pos.1 < column+1) exactly if no orthogonal neighbour beats the cell (C37_panics_iff)"
},
{
"property": "C38",
"status": "partial",
"theorems": [
"Ms.Properties.C38_total",
"Ms.Properties.C38_seek_partial",
"Ms.Properties.C38_history_partial",
"Ms.Properties.C38_tie",
"Ms.Properties.C38_jump",
"Ms.Properties.C38_refuted",
"Ms.Properties.C38_start"
],
"note": "Seeking never panics, shows the clamped time, and goes to the last event not after the wanted time independently of the history, provided the current event is not at exactly that time; at exactly that time it goes one event too far back (C38_tie, C38_refuted). Jumping to an id shows that event; ids out of range panic. Times are exact rationals."
},
{
"property": "C39",
"status": "partial",
"theorems": [
"Ms.Properties.C39_exact_partial",
"Ms.Properties.C39_uniform",
"Ms.Properties.C39_first_panics",
"Ms.Properties.C39_shape",
"Ms.Properties.C39_refuted"
],
"note": "After the first opened cell (by an event other than the first) the matrix has the shape of the board and holds the exact probabilities; before, it is transposed (C39_uniform, C39_shape); at the first event it panics (C39_first_panics, C39_refuted)."
},
{
"property": "C40",
"status": "proved",
"theorems": [
"Ms.Properties.C40_win_then_flag",
"Ms.Properties.C40_win_then_flag_else",
"Ms.Properties.C40_loss_then_open",
"Ms.Properties.C40_loss_then_open_else"
],
"note": "Both end-of-game board changes, exactly."
},
{
"property": "C41",
"status": "proved",
"theorems": [
"Ms.Properties.mark_board_exact",
"Ms.Properties.mark_board_error",
"Ms.Properties.mark_board_touches",
"Ms.Properties.mark_board_panics",
"Ms.Properties.mark_board_finds"
],
"note": "Exact on every board some layout meets; errors and panics only on contradictory boards; only covered cells next to numbers change on every board. Contradictory boards may panic instead of returning the documented error (mark_board_panics). Exactly the cells of three looks: mark_board_finds."
},
{
"property": "C42",
"status": "proved",
"theorems": [
"Ms.Properties.C42_shuffle_perm",
"Ms.Properties.C42_random_int_lt",
"Ms.Properties.C42_shuffle_all",
"Ms.Properties.C42_random_int_unbiased"
],
"note": ""
},
{
"property": "C43",
"status": "partial",
"theorems": [
"Ms.Properties.C43_avf_panic",
"Ms.Properties.C43_rmv_panic",
"Ms.Properties.C43_mvf_panic",
"Ms.Properties.C43_no_panic_partial",
"Ms.Properties.C43_refuted"
],
"note": "The claim is false: the exact set of files on which each reader panics is proved (C43_*_panic), every other file is read or refused (C43_no_panic_partial), and each cause is shown to occur (C43_refuted)."
},
{
"property": "C44",
"status": "partial",
"theorems": [
"Ms.Properties.is_able_to_solve_sound",
"Ms.Properties.is_able_to_solve_safe",
"Ms.Properties.is_able_to_solve_mine_partial",
"Ms.Properties.is_able_to_solve_incomplete",
"Ms.Properties.get_all_on_board_exact",
"Ms.Properties.is_guess_while_needless_sound",
"Ms.Properties.is_guess_while_needless_complete_partial",
"Ms.Properties.is_guess_while_needless_inner",
"Ms.Properties.is_guess_while_needless_wrong_four",
"Ms.Properties.is_guess_while_needless_misses",
"Ms.Properties.is_able_to_solve_iff",
"Ms.Properties.get_all_on_board_iff",
"Ms.Properties.is_guess_while_needless_frontier"
],
"note": "is_able_to_solve, get_all_not_and_is_mine_on_board and is_guess_while_needless are total on explainable boards, sound, and complete for safe cells up to the enumeration limit of 55. False of the code, with counterexamples: certain mines with a twin are missed (is_able_to_solve_incomplete); answer 4 for a click inside a region speaks about another cell (wrong_four); answer 2 although a cell of the region is safe (misses). What is_able_to_solve and get_all_not_and_is_mine_on_board do find, exactly, with no limit on the board: is_able_to_solve_iff, get_all_on_board_iff."
},
{
"property": "C45",
"status": "proved",
"theorems": [
"Ms.Properties.C45_C",
"Ms.Properties.C45_C_panics",
"Ms.Properties.C45_C_query",
"Ms.Properties.C45_bignumber_arith",
"Ms.Properties.C45_div_usize_zero_diverges"
],
"note": "exact mantissas (f64 rounding not modelled)"
},
{
"property": "C46",
"status": "partial",
"theorems": [
"Ms.Properties.C46_regenerate_partial",
"Ms.Properties.C46_refuted",
"Ms.Properties.C46_panics_without_data"
],
"note": "False after a second set_checksum (the stored checksum is not updated, C46_refuted, for every record); true after the first (C46_regenerate_partial). set_checksum without generated data panics."
},
{
"property": "C47",
"status": "partial",
"theorems": [
"Ms.Properties.laymine_solvable_adjust_board_partial",
"Ms.Properties.adjust_too_many_mines",
"Ms.Properties.adjust_needs_guess"
],
"note": "Proved for all boards with at least 2 rows and columns and all shuffles: it returns, the board has the right size and numbers, the start (and its block) is free, at least as many mines as requested, exactly as many when it reports failure. Refuted: on success there may be more mines than requested (adjust_too_many_mines) and the board may need a guess (adjust_needs_guess)."
},
{
"property": "C48",
"status": "proved",
"theorems": [
"Ms.Properties.C48_nothing_before",
"Ms.Properties.C48_timeline",
"Ms.Properties.C48_step",
"Ms.Properties.C48_path",
"Ms.Properties.C48_pix"
],
"note": "Every history of step/set_board (before the first opened cell)/set_pix_size (before the game)/reset with a clock that does not run backwards, events other than pf. A lost left click has level 0 and its opened board is not stored; stated in the theorem."
},
{
"property": "C49",
"status": "partial",
"theorems": [
"Ms.Properties.C49_rtime_partial",
"Ms.Properties.C49_first_click",
"Ms.Properties.C49_completed",
"Ms.Properties.C49_refuted"
],
"note": "Proved for games that opened cells before the ending event. False for games won or lost by their first opening click: rtime is then the click's time minus a stale start (C49_first_click, C49_refuted)."
},
{
"property": "C50",
"status": "proved",
"theorems": [
"Ms.Properties.C50_replay",
"Ms.Properties.C50_replay_exact",
"Ms.Properties.C50_file_replay",
"Ms.Properties.C50_ce_carried_over",
"Ms.Properties.C50_pix_after_end",
"Ms.Properties.C50_analyse_panics"
],
"note": "Direct replay and replay through an EVF file. The mouse-path length is excluded (the two computations differ, shown by example); double differs by its value at the first event and ce by at most its value there (carried over from before the recording: C50_ce_carried_over), exact when both are 0 (C50_replay_exact); ce excluded when set_board is called between the first event and the first opened cell."
},
{
"property": "C51",
"status": "partial",
"theorems": [
"Ms.Properties.C51_no_panic_partial",
"Ms.Properties.C51_refuted",
"Ms.Properties.C51_get_time_partial",
"Ms.Properties.C51_get_time_refuted"
],
"note": "False in general: C51_refuted (stale game_start_ms after reset), C51_get_time_refuted (truncation against rounding). Proved outside these cases."
},
{
"property": "C52",
"status": "proved",
"theorems": [
"Ms.Properties.C52_analyse",
"Ms.Properties.C52_delta",
"Ms.Properties.C52_shows",
"Ms.Properties.C52_panics_iff"
],
"note": "Whenever analyse returns; it panics on events the machine refuses (C50_analyse_panics). Taking back the only flag before the first opening has level 0, so the replay goes on showing it (C39_shape). C52_panics_iff: when analyse panics."
},
{
"property": "C53",
"status": "proved",
"theorems": [
"Ms.Properties.C53_certain",
"Ms.Properties.C53_poss",
"Ms.Properties.C53_poss_panics",
"Ms.Properties.C53_stale",
"Ms.Properties.C53_zero_mines",
"Ms.Properties.C53_too_many",
"Ms.Properties.C53_certain_iff"
],
"note": "Exact rationals for f64; get_poss with every number within reach of the enumeration (always so with at most 55 covered cells). Outside the property: stale answers after a second set_game_board, 0 mines taken for a density, NaN with too many mines."
},
{
"property": "C54",
"status": "proved",
"theorems": [
"Ms.Properties.C54_avf_prefix",
"Ms.Properties.C54_rmv_prefix",
"Ms.Properties.C54_mvf_prefix",
"Ms.Properties.C54_avf_wellformed",
"Ms.Properties.C54_rmv_wellformed",
"Ms.Properties.C54_mvf_wellformed",
"Ms.Properties.C54_duplicate_mines",
"Ms.Properties.C54_mvf_accepts_anything"
],
"note": "Findings: duplicated mines are accepted (C54_duplicate_mines); any other file of two or more bytes is accepted by the MVF reader as an empty video."
},
{
"property": "C55",
"status": "proved",
"theorems": [
"Ms.Properties.C55_avf",
"Ms.Properties.C55_rmv",
"Ms.Properties.C55_mvf",
"Ms.Properties.C55_mvf_order",
"Ms.Properties.C55_mvf_decode",
"Ms.Properties.C55_mvf_encode",
"Ms.Properties.C55_number"
],
"note": "Against the layouts in SpecFormat.lean; str::parse::<f64> and the forty digits of the MVF code are parameters."
},
{
"property": "C56",
"status": "partial",
"theorems": [
"Ms.Properties.C56_position",
"Ms.Properties.C56_high_risk",
"Ms.Properties.C56_jump_judge",
"Ms.Properties.C56_known_safe",
"Ms.Properties.C56_needless_guess",
"Ms.Properties.C56_survive",
"Ms.Properties.C56_never",
"Ms.Properties.C56_forced_guess",
"Ms.Properties.C56_failed_guess",
"Ms.Properties.C56_survive_overwrites",
"Ms.Properties.goodVideo_small"
],
"note": "The exact behaviour of all four analyses is proved. Refuted parts: needless_guess comments every risky left opening, forced or not (C56_forced_guess); failed guesses are never commented (C56_failed_guess); flags are never called hard (C56_never); survive_poss replaces the comments of the last event (C56_survive_overwrites) and panics on an empty video."
},
{
"property": "C57",
"status": "proved",
"theorems": [
"Ms.Properties.C57_mouse_trace",
"Ms.Properties.C57_vision_transfer",
"Ms.Properties.C56_never"
],
"note": "Exact for all videos. The comment 'straight way' can never occur (C56_never)."
},
{
"property": "C58",
"status": "partial",
"theorems": [
"Ms.Properties.C58_super_fl",
"Ms.Properties.C58_wrong_flag_counts",
"Ms.Properties.C58_end_of_video",
"Ms.Properties.C58_panics",
"Ms.Properties.C58_too_far_panics"
],
"note": "Exact panic condition and exact set of comments proved (C58_super_fl). Refuted parts: it panics for a right press off the board (C58_panics), for chords in the last column, and when the squared distance of two events overflows 32 bits (C58_too_far_panics; only with cells of one pixel); flags are not checked to be on mines (C58_wrong_flag_counts); a run lasting to the end of the video is not reported (C58_end_of_video)."
},
{
"property": "C59",
"status": "partial",
"theorems": [
"Ms.Properties.C59_counts",
"Ms.Properties.C59_mouse_code",
"Ms.Properties.C59_rates",
"Ms.Properties.C59_quotients",
"Ms.Properties.C59_stnb_zero",
"Ms.Properties.C59_stnb",
"Ms.Properties.C59_empty",
"Ms.Properties.C59_time",
"Ms.Properties.C59_qg_partial",
"Ms.Properties.C59_position_partial",
"Ms.Properties.C59_live_counts",
"Ms.Properties.C59_live_end",
"Ms.Properties.C59_live_zero",
"Ms.Properties.C59_live_playing",
"Ms.Properties.C59_totals",
"Ms.Properties.C59_totals_shown",
"Ms.Properties.C59_qg_refuted",
"Ms.Properties.C59_position_refuted",
"Ms.Properties.C59_corr_refuted",
"Ms.Properties.C59_live_refuted",
"Ms.Properties.C59_live_end_refuted",
"Ms.Properties.C59_live_rate_refuted",
"Ms.Properties.C59_path",
"Ms.Properties.C59_live_path",
"Ms.Properties.C59_mouse_codes"
],
"note": "Proved for every reachable player and session: counters, rates, quotients, etime, rqp, stnb, totals. Restricted: qg needs ascending times (C59_qg_refuted: NaN), get_x_y panics when no event so far lies left of the right edge (C59_position_refuted), corr may exceed 1 (C59_corr_refuted), live ce_s, rqp and qg are always 0 (C59_live_refuted), live rates are infinite for a game of 0 ms and panic right after the start (C59_live_end_refuted, C59_live_rate_refuted). stnb is infinite if the file states a 3BV of 0 (C59_stnb). f64 rounding is not modelled; powf is a parameter."
},
{
"property": "C60",
"status": "partial",
"theorems": [
"Ms.Properties.C60_is_valid",
"Ms.Properties.C60_won",
"Ms.Properties.C60_avf",
"Ms.Properties.C60_mvf",
"Ms.Properties.C60_rmv",
"Ms.Properties.C60_refuted",
"Ms.Properties.C60_evf",
"Ms.Properties.C60_evf_unsigned",
"Ms.Properties.C60_bbbv_zero"
],
"note": "The answers 0, 1, 3 are exactly those described, for every video. Missing: 'never panics' is false for Viennasweeper videos whose start time has fewer than ten bytes or a byte below 48 (characterised exactly; C60_refuted is an accepted RMV file). The 3BV is the one stated by the file: 0 passes the density test (C60_bbbv_zero)."
},
{
"property": "C61",
"status": "partial",
"theorems": [
"Ms.Properties.C61_board",
"Ms.Properties.C61_sample",
"Ms.Properties.C61_off_board",
"Ms.Properties.C61_refuted"
],
"note": "Proved for every first cell on the board and all shuffles: no panic, the histogram counts cal_bbbv_exp of boards that are expert boards with a safe first cell. The full statement is false: the boards are recorded under cal_bbbv_exp, which can exceed the 3BV (C61_refuted), and only 16*(n/16) boards are made (C61_sample). Off the board: C61_off_board. The random generator is a parameter."
},
{
"property": "C62",
"status": "proved",
"theorems": [
"Ms.Properties.C62_step",
"Ms.Properties.C62_system",
"Ms.Properties.C62_empty",
"Ms.Properties.C62_refuted"
],
"note": "C62_empty: on an empty table it panics (the code demands a non-empty one), so a system that becomes unsolvable before its last equation panics; C62_refuted: rows with different open cells give rows that violate the equation."
},
{
"property": "C63",
"status": "proved",
"theorems": [
"Ms.Properties.C63_enum_comb",
"Ms.Properties.combine_combOK"
],
"note": "CombOK is met by every block that combine makes (combine_combOK)."
},
{
"property": "C64",
"status": "proved",
"theorems": [
"Ms.Properties.C64_table",
"Ms.Properties.C64_unsat",
"Ms.Properties.C64_limit",
"Ms.Properties.C64_agree",
"Ms.Properties.C64_refuted"
],
"note": "C64_refuted: with a right-hand side of 256 (no board gives one) an unsolvable block is taken for solvable, because sums are compared as u8."
},
{
"property": "C65",
"status": "proved",
"theorems": [
"Ms.Properties.C65_fl64_nearest",
"Ms.Properties.C65_round_trip",
"Ms.Properties.C65_monotone",
"Ms.Properties.C65_nearest",
"Ms.Properties.C65_negative",
"Ms.Properties.C65_nearest_refuted",
"Ms.Properties.C65_time_between",
"Ms.Properties.C65_time_between_mono",
"Ms.Properties.C65_model",
"Ms.Properties.C65_event",
"Ms.Properties.C65_mvf_result",
"Ms.Properties.C65_mvf_event",
"Ms.Properties.C65_avf_event",
"Ms.Properties.C65_avf_result",
"Ms.Properties.C65_fl64_ties_even"
],
"note": "C65_fl64_nearest: the rounding of the model is a nearest double. C65_model links the recording model's whole milliseconds. C65_nearest_refuted: the true nearest millisecond is not always taken (0.0045 s)."
},
{
"property": "C66",
"status": "partial",
"theorems": [
"Ms.Properties.C66_save",
"Ms.Properties.C66_crash",
"Ms.Properties.C66_sequence",
"Ms.Properties.C66_schedule",
"Ms.Properties.C66_apart",
"Ms.Properties.C66_names_apart",
"Ms.Properties.C66_race"
],
"note": "Everything but the last clause holds. Concurrent calls keep their data when their names are apart (C66_apart, C66_names_apart); for calls with the same name it is false of the code: C66_race."
},
{
"property": "C67",
"status": "partial",
"theorems": [
"Ms.Properties.C67_file",
"Ms.Properties.C67_generate_panics",
"Ms.Properties.C67_setters",
"Ms.Properties.C67_step",
"Ms.Properties.C67_reset",
"Ms.Properties.C67_stale_checksum",
"Ms.Properties.C67_stale_board",
"Ms.Properties.C67_toggle_lost",
"Ms.Properties.C67_level",
"Ms.Properties.C67_level_new"
],
"note": "Everything but the checksum clause holds (C67_file: the checksum written is the one the object holds); that clause is false of the code: C67_stale_checksum (reset keeps has_checksum). The other theorems mark the borders: time limit (C67_generate_panics), board missing after a reset (C67_stale_board), event names (C67_toggle_lost), level."
},
{
"property": "C68",
"status": "partial",
"theorems": [
"Ms.Properties.C68_list_partial",
"Ms.Properties.C68_matrix_partial",
"Ms.Properties.C68_marking_harmless",
"Ms.Properties.C68_contradiction_missed",
"Ms.Properties.C68_density_panics",
"Ms.Properties.C68_list_silent",
"Ms.Properties.C68_marking_error",
"Ms.Properties.C68_wasm_ignores"
],
"note": "Exact for every board some layout explains (C68_list_partial, C68_matrix_partial, C68_marking_harmless). The claim about boards no layout explains and the claim that nothing panics are false of the code: C68_contradiction_missed, C68_density_panics; C68_list_silent: the list leaves out certain mines and certain safe cells alike."
},
{
"property": "C69",
"status": "partial",
"theorems": [
"Ms.Properties.C69_hand_partial",
"Ms.Properties.C69_no_panic_partial",
"Ms.Properties.C69_flow_partial",
"Ms.Properties.C69_press_outside_refused",
"Ms.Properties.C69_reset_refused",
"Ms.Properties.C69_flow_steps"
],
"note": "C69_hand_partial: agreement always, and exactly one situation in which an event is refused. C69_no_panic_partial / C69_flow_partial: no panic of the Python class if presses are on the board. The full claim is false: C69_press_outside_refused, C69_reset_refused, and C17_refuted for the panic."
},
{
"property": "C70",
"status": "proved",
"theorems": [
"Ms.Properties.C70_game_board_2"
],
"note": ""
},
{
"property": "C71",
"status": "partial",
"theorems": [
"Ms.Properties.C71_scores",
"Ms.Properties.C71_scores_rows",
"Ms.Properties.C71_full_line",
"Ms.Properties.C71_skipped_column"
],
"note": "Everything but 'every column has a rating': the column before the last two has none (C71_skipped_column, a finding)."
},
{
"property": "C72",
"status": "partial",
"theorems": [
"Ms.Properties.C72_small",
"Ms.Properties.C72_short",
"Ms.Properties.C72_flat",
"Ms.Properties.C72_segmentation_partial",
"Ms.Properties.C72_board_partial",
"Ms.Properties.C72_stripes_panic",
"Ms.Properties.C72_samples_outside",
"Ms.Properties.C72_samples_reach",
"Ms.Properties.C72_panic_iff",
"Ms.Properties.C72_fl32_nearest",
"Ms.Properties.C72_fl32_ties_even"
],
"note": "As stated ('does not panic') it is false of the code. Exactly when OBR_board panics: C72_panic_iff, C72_segmentation_partial (no two neighbouring lines more than five apart in one of the two directions). Concrete families that panic: C72_stripes_panic, C72_samples_outside (rows and columns are found, but a sample lies outside the picture), C74_large_cells_panic, C74_small_cells_panic; too few data: C72_short. How far outside a sample can lie, and when it cannot: C72_samples_reach. Shape and legality of a board returned: C72_board_partial (sides below 2^21 pixels)."
},
{
"property": "C73",
"status": "partial",
"theorems": [
"Ms.Properties.C73_even_lines",
"Ms.Properties.C73_eight_refuted",
"Ms.Properties.C73_dense_refuted",
"Ms.Properties.C73_wrong_size",
"Ms.Properties.C73_large_refuted",
"Ms.Properties.C73_lines_found"
],
"note": "Proved for 10 to 200 pixels (one pixel wide lines: 9 to 200). False for one pixel wide lines at 8 pixels (C73_eight_refuted), for two pixels wide lines at 8 and 9 pixels (C73_dense_refuted) and from 201 pixels on (C73_wrong_size; from 206 on exactly: C73_large_refuted). Lines not evenly spaced are found too: C73_lines_found."
},
{
"property": "C74",
"status": "partial",
"theorems": [
"Ms.Properties.C74_ideal_picture",
"Ms.Properties.C74_large_cells_panic",
"Ms.Properties.C74_small_cells_panic",
"Ms.Properties.C74_samples_shifted",
"Ms.Properties.C74_eight"
],
"note": "Proved for cells of 10 to 200 pixels, margins as in Side, and three lines in the middle third of each direction (always so from eight rows and columns on: C74_eight). False from 206 pixels on (C74_large_cells_panic) and for cells of 8 or 9 pixels (C74_small_cells_panic). C74_samples_shifted: the samples are two pixels off. Open: 201 to 205 pixels, boards of seven or fewer rows or columns with fewer lines in the middle third."
},
{
"property": "C75",
"status": "partial",
"theorems": [
"Ms.Properties.C75_native",
"Ms.Properties.C75_small_partial",
"Ms.Properties.C75_enumerate_partial",
"Ms.Properties.C75_wasm_partial",
"Ms.Properties.C75_refuted"
],
"note": "64 bits: proved for every board (C75_native). 32 bits (wasm): proved when no number is linked to more than 28 covered cells (27 for solve_enumerate); false in general: C75_refuted."
},
{
"property": "C76",
"status": "proved",
"theorems": [
"Ms.Properties.C76_laymine",
"Ms.Properties.C76_laymine_op",
"Ms.Properties.C76_laymine_solvable",
"Ms.Properties.C76_js_shuffle",
"Ms.Properties.C42_random_int_unbiased"
],
"note": "The random generator itself (thread_rng of the rand crate) is assumed uniform over permutations; the js generator over 32-bit draws."
},
{
"property": "C77",
"status": "partial",
"theorems": [
"Ms.Properties.cal_possibility_float",
"Ms.Properties.cal_possibility_onboard_float",
"Ms.Properties.cal_is_op_possibility_float",
"Ms.Properties.cal_possibility_contradiction_float",
"Ms.Properties.C77_safe_exact",
"Ms.Properties.rounds_fl64",
"Ms.Properties.roundsAbs_fl64",
"Ms.Properties.calPossibilityF_id",
"Ms.Properties.C77_sure_mine_below_one",
"Ms.Properties.C77_above_one",
"Ms.Properties.C77_open_negative",
"Ms.Properties.tolerance_expert",
"Ms.Properties.tolerance_open",
"Ms.Properties.density_rounds"
],
"note": "Proved for boards of at most 789 covered cells and 10^12 distributions of mines over the groups (beyond that numbers may underflow); opening chances for at most 39 covered cells next to numbers. Reported 0.0 exactly for safe cells; the same for 1.0 and sure mines, probabilities at most 1.0 and opening chances at least 0, refuted by concrete boards."
},
{
"property": "C78",
"status": "proved",
"theorems": [
"Ms.Properties.C78_solve_enumerate",
"Ms.Properties.C78_too_long",
"Ms.Properties.C78_enumerate_panic",
"Ms.Properties.C78_mark_board",
"Ms.Properties.C78_mark_board_silent",
"Ms.Properties.C78_get_all",
"Ms.Properties.C78_unmarked",
"Ms.Properties.C78_obr"
],
"note": "Exact characterisation, with the findings as theorems: groups over 55 cells give nothing, enumeration does not mark, mark_board drops the error."
},
{
"property": "C79",
"status": "partial",
"theorems": [
"Ms.Properties.C79_stands_for_partial",
"Ms.Properties.C79_refused_partial",
"Ms.Properties.C79_r_outside",
"Ms.Properties.C79_before",
"Ms.Properties.C79_cc_before_partial",
"Ms.Properties.C79_flow_partial"
],
"note": "Proved for every event and every sequence during a game. Missing because false of the code: before the game all these names but cc are refused (C79_before), and r outside the board panics (C79_r_outside)."
},
{
"property": "C80",
"status": "partial",
"theorems": [
"Ms.Properties.C80_numbers_partial",
"Ms.Properties.C80_no_win_missed_partial",
"Ms.Properties.C80_loss_flags_partial",
"Ms.Properties.C80_false_win",
"Ms.Properties.C80_front"
],
"note": "Proved: numbers, no missed win, loss shows a mine, flag counter. Missing because false of the code: a win may be declared with a safe cell covered or a mine opened (C80_false_win), because is_win does not scan again the cells before its pointer; proved in full (C80_front) when replacements keep the mines that have no covered safe cell before them in reading order."
},
{
"property": "C81",
"status": "partial",
"theorems": [
"Ms.Properties.C81_board_partial",
"Ms.Properties.C81_free_undefined"
],
"note": "Handing out and reading proved. The freeing clause is false of the code for every board (C81_free_undefined): the layouts passed to dealloc count elements instead of bytes and use the size of a row as its alignment."
},
{
"property": "C82",
"status": "partial",
"theorems": [
"Ms.Properties.C82_replay_partial",
"Ms.Properties.C82_counters_differ"
],
"note": "Everything seen is proved to replay. Effective clicks and solved 3BV are not the same in general: refuted by C82_counters_differ (they were counted on boards that are gone)."
},
{
"property": "C83",
"status": "partial",
"theorems": [
"Ms.Properties.C83_player",
"Ms.Properties.C83_assign",
"Ms.Properties.C83_seek",
"Ms.Properties.C83_out_of_range",
"Ms.Properties.C83_time_stale",
"Ms.Properties.C83_time_refuted"
],
"note": "Board, counters, later seeks and recovery proved for every history. The time and the rates are not those of the event assigned: refuted by C83_time_refuted, characterised by C83_time_stale."
},
{
"property": "C84",
"status": "partial",
"theorems": [
"Ms.Properties.C84_accepts",
"Ms.Properties.C84_reads_v2",
"Ms.Properties.C84_reads_no_other",
"Ms.Properties.C84_writes",
"Ms.Properties.C84_writes_none"
],
"note": "The accepted files are characterised exactly (C84_accepts) and version 0.2 is read completely (C84_reads_v2). Files of versions 0.0, 0.1 and 0.3 are never read as what they say (C84_reads_no_other), and every file written has the layout of 0.2 under the number 0 (C84_writes), so follows no version (C84_writes_none)."
},
{
"property": "C85",
"status": "partial",
"theorems": [
"Ms.Properties.C85_story",
"Ms.Properties.C85_official_lost",
"Ms.Properties.C85_pixel",
"Ms.Properties.C85_outside",
"Ms.Properties.C85_nf"
],
"note": "First event, order of times and last event proved for every history (C85_story). The other clauses are false of the code: C85_outside (points off the board are recorded as given), C85_pixel (the cell size may change after the game), C85_official_lost (a lost game can be official), C85_nf (the no-flag bit is never set)."
},
{
"property": "C86",
"status": "partial",
"theorems": [
"Ms.Properties.C86_reader",
"Ms.Properties.C86_reads",
"Ms.Properties.C86_reads_same",
"Ms.Properties.C86_reads_only",
"Ms.Properties.C86_written",
"Ms.Properties.C86_confuses",
"Ms.Properties.C86_measures",
"Ms.Properties.C86_new",
"Ms.Properties.C86_uses",
"Ms.Properties.C86_step_flow",
"Ms.Properties.C86_step_flow_refuted",
"Ms.Properties.C86_operation_shape",
"Ms.Properties.C86_game_board",
"Ms.Properties.C86_codes",
"Ms.Properties.C86_laymine",
"Ms.Properties.C86_laymine_op",
"Ms.Properties.C86_laymine_solvable",
"Ms.Properties.C86_laymine_negative"
],
"note": "Proved for every text that spells a matrix of integers of 32 bits / operations on cells below 2^32, for all written texts, for laying boards and for the codes. The two clauses that different matrices are different boards and that no operation lands on another cell are false of the code (C86_confuses: 4294967295 is read as a mine; C86_step_flow_refuted: row 4294967296 is row 0); C86_reads gives the exact value. serde_json is assumed to read spellings (Reader, satisfiable by C86_reader)."
},
{
"property": "C87",
"status": "proved",
"theorems": [
"Ms.Properties.C87_mirror",
"Ms.Properties.C87_upside_down",
"Ms.Properties.C87_flipped",
"Ms.Properties.C87_group",
"Ms.Properties.C87_counts",
"Ms.Properties.C87_numbers",
"Ms.Properties.C87_probabilities",
"Ms.Properties.C87_contradiction",
"Ms.Properties.C87_solvable",
"Ms.Properties.C87_solvable_safe_start",
"Ms.Properties.C87_solvable_sound"
],
"note": "For all eight symmetries and every map that keeps neighbours; is_solvable for every such map from starts showing 0 (C87_solvable) and for the eight symmetries from every safe start (C87_solvable_safe_start), at all sizes."
},
{
"property": "C88",
"status": "partial",
"theorems": [
"Ms.Properties.C88_new",
"Ms.Properties.C88_reset",
"Ms.Properties.C88_step",
"Ms.Properties.C88_flow",
"Ms.Properties.C88_game",
"Ms.Properties.C88_solved_partial",
"Ms.Properties.C88_game_solved",
"Ms.Properties.C88_bbbv_solved_refuted"
],
"note": "All clauses except the solved 3BV are proved for all boards, maps and events. The clause on bbbv_solved is false of the code: C88_bbbv_solved_refuted gives a 3x4 board and a game after which bbbv_solved is 1 and 0 in the mirror (op_num_around_cell counts an opening cut off by its own marks after it met a flag). It is proved for games in which at no time a zero cell carries a flag (C88_game_solved, C88_solved_partial)."
},
{
"property": "C89",
"status": "partial",
"theorems": [
"Ms.Properties.C89_total",
"Ms.Properties.C89_certain",
"Ms.Properties.C89_average",
"Ms.Properties.C89_forgets"
],
"note": "The sum is proved for every board. Certainty and the average are proved for all boards on which no more than 55 covered cells are linked through numbers; beyond this limit of the engine the claim is false of the code (C89_forgets: a cell with probability 0 gets a positive one after opening further zeros)."
},
{
"property": "C90",
"status": "proved",
"theorems": [
"Ms.Properties.C90_first",
"Ms.Properties.C90_again",
"Ms.Properties.C90_player",
"Ms.Properties.C90_features"
],
"note": "For all videos, any number of calls and all series of later calls."
},
{
"property": "C91",
"status": "partial",
"theorems": [
"Ms.Properties.C91_adds",
"Ms.Properties.C91_several",
"Ms.Properties.C91_order",
"Ms.Properties.C91_twice",
"Ms.Properties.C91_survive_twice",
"Ms.Properties.C91_survive_erases",
"Ms.Properties.C91_comments_twice"
],
"note": "Proved for all series without survive_poss (C91_adds, C91_several, C91_order). False of the code otherwise: survive_poss replaces the comments of the last event, so its place in the series matters (C91_survive_erases), and a feature asked for again writes its comments again (C91_comments_twice; exactly twice: C91_twice; survive_poss not: C91_survive_twice). Hypothesis GoodVideo: the numbers are right, there is a mine, no position exceeds the reach of the enumeration."
},
{
"property": "C92",
"status": "proved",
"theorems": [
"Ms.Properties.is_solvable_exact",
"Ms.Properties.is_solvable_exact_zero",
"Ms.Properties.clears_no_guess"
],
"note": "For all boards and safe starts; the player (Clears, SpecEasy.lean) is given without equations, lists or an order of rules."
},
{
"property": "C93",
"status": "proved",
"theorems": [
"Ms.Properties.C93_mark_board",
"Ms.Properties.C93_able",
"Ms.Properties.C93_all",
"Ms.Properties.C93_order"
],
"note": "For all explainable boards of any size, all maps of cells that keep neighbours; C93_order for all satisfiable systems."
},
{
"property": "C94",
"status": "proved",
"theorems": [
"Ms.Properties.C94_recording",
"Ms.Properties.C94_clock",
"Ms.Properties.C94_analyse",
"Ms.Properties.C94_play",
"Ms.Properties.C94_features",
"Ms.Properties.C94_features_later",
"Ms.Properties.C94_vision_refuted"
],
"note": "C94_vision_refuted shows the exception named in the statement."
},
{
"property": "C95",
"status": "proved",
"theorems": [
"Ms.Properties.C95_machine",
"Ms.Properties.C95_live",
"Ms.Properties.C95_live_next",
"Ms.Properties.C95_live_move",
"Ms.Properties.C95_analyse",
"Ms.Properties.C95_analyse_panics"
],
"note": "Files: for boards that fit 16 bits both are analysed or neither (C95_analyse_panics)."
},
{
"property": "C96",
"status": "proved",
"theorems": [
"Ms.Properties.C96_first",
"Ms.Properties.C96_never_lost",
"Ms.Properties.C96_accepted",
"Ms.Properties.C96_no_dead_end",
"Ms.Properties.C96_can_win",
"Ms.Properties.C96_win_iff",
"Ms.Properties.C96_solvable",
"Ms.Properties.C96_rejected",
"Ms.Properties.C96_laid",
"Ms.Properties.C96_laid_thread"
],
"note": ""
},
{
"property": "C97",
"status": "proved",
"theorems": [
"Ms.Properties.C97_cut",
"Ms.Properties.C97_player",
"Ms.Properties.C97_good",
"Ms.Properties.C97_guesses",
"Ms.Properties.C97_mouse_trace",
"Ms.Properties.C97_vision_transfer",
"Ms.Properties.C97_super_fl",
"Ms.Properties.C97_survive_poss"
],
"note": ""
},
{
"property": "C98",
"status": "proved",
"theorems": [
"Ms.Properties.C98_never_lost",
"Ms.Properties.C98_accepted",
"Ms.Properties.C98_lasting",
"Ms.Properties.C98_no_dead_end",
"Ms.Properties.C98_careful",
"Ms.Properties.C98_ask",
"Ms.Properties.C98_mark",
"Ms.Properties.C98_program",
"Ms.Properties.exCount_stuck",
"Ms.Properties.exCount_asked"
],
"note": ""
},
{
"property": "C99",
"status": "proved",
"theorems": [
"Ms.Properties.C99_iff",
"Ms.Properties.C99_layouts",
"Ms.Properties.C99_agrees",
"Ms.Properties.C99_certain",
"Ms.Properties.C99_chooses",
"Ms.Properties.C99_never_loses",
"Ms.Properties.C99_gamble",
"Ms.Properties.exSecret_seen",
"Ms.Properties.exMind_neverLoses"
],
"note": ""
}
]
}