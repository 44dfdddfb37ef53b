{"id": "C01", "title": "laymine lays exactly the requested mines, never on the start cell, with correct numbers", "statement": "For every row, column, minenum with minenum <= row*column-1 and start cell on the board, laymine(row,column,minenum,x0,y0) returns a row x column board with exactly minenum mines (-1), the start cell is not a mine, and every other cell holds the number of mines among its (up to 8) neighbours; and every mine layout that avoids the start cell is produced by some shuffle outcome.", "quantifier": "all board sizes, mine counts, start cells and all outcomes of the random shuffle", "why_tests_cant": "The result depends on a random permutation of row*column-1 entries; a test sees a handful of shuffles of a handful of sizes.", "anchors": ["base/src/utils.rs:laymine", "base/src/utils.rs:cal_board_numbers"]}
{"id": "C02", "title": "laymine_op opens the start: no mine in the 3x3 block around it", "statement": "For every row, column >= 2, start cell on the board and minenum not exceeding the cells outside the 3x3 block around the start, laymine_op returns a board with exactly minenum mines, none in that block (so the start cell shows 0) and correct numbers; the same is relied on for one-row and one-column boards.", "quantifier": "all sizes, start positions (corner, edge, interior), mine counts, shuffle outcomes", "why_tests_cant": "Corner/edge index shifting must be right for every position and every shuffle; tests use one size.", "anchors": ["base/src/utils.rs:laymine_op"]}
{"id": "C03", "title": "Numbers written by cal_board_numbers are exactly the neighbour-mine counts", "statement": "For every rectangular board whose cells are mines (-1) or 0, cal_board_numbers leaves the mines in place and writes in each other cell the number of mines in its 8-neighbourhood, clipped at the borders; no number exceeds 8.", "quantifier": "all rectangular mine layouts of any size", "why_tests_cant": "The layout space is exponential in the area; border clipping must hold at every cell.", "anchors": ["base/src/utils.rs:cal_board_numbers"]}
{"id": "C04", "title": "cal_op is the number of 8-connected components of zero cells", "statement": "cal_op(board) equals the number of equivalence classes of zero cells under 8-neighbour connectivity, for every rectangular board, and the flood fill always terminates.", "quantifier": "all rectangular boards with any cell values", "why_tests_cant": "Connected components are a global property; the flood fill's correctness and termination are inductive over arbitrary shapes.", "anchors": ["base/src/utils.rs:cal_op", "base/src/utils.rs:infect_board"]}
{"id": "C05", "title": "cal_isl is the number of islands", "statement": "cal_isl(board) equals the number of 8-connected components of the set of numbered cells that touch no zero cell.", "quantifier": "all rectangular boards", "why_tests_cant": "Same as cal_op: arbitrary shapes and sizes.", "anchors": ["base/src/utils.rs:cal_isl", "base/src/utils.rs:cal_op"]}
{"id": "C06", "title": "cal_cell_nums counts each digit exactly", "statement": "For every board with values in -1..8, entry k of cal_cell_nums(board) is the number of cells showing k, and the nine entries plus the mines sum to row*column; a value above 8 makes the call panic.", "quantifier": "all boards", "why_tests_cant": "Must hold for every board; also the panic boundary.", "anchors": ["base/src/utils.rs:cal_cell_nums"]}
{"id": "C07", "title": "cal_bbbv is the 3BV: openings plus isolated numbers", "statement": "cal_bbbv(board) = (number of 8-connected zero components) + (number of positive cells with no zero cell in their 3x3 block), and this equals the minimum number of left clicks that opens every safe cell of a board with correct numbers.", "quantifier": "all rectangular boards", "why_tests_cant": "Optimality over all click sequences and all boards is not testable.", "anchors": ["base/src/utils.rs:cal_bbbv", "base/src/utils.rs:cal3BVonIsland"]}
{"id": "C08", "title": "Board metric getters are stable: every call returns the true metric", "statement": "For Board::new(b) and any sequence of get_bbbv/get_op/get_isl/get_cell0..8 calls, every call returns the value cal_bbbv/cal_op/cal_isl/cal_cell_nums gives on b.", "quantifier": "all boards and all call sequences", "why_tests_cant": "The caching bug surfaces only for particular call orders; the claim is over all histories.", "anchors": ["base/src/board.rs:Board"]}
{"id": "C09", "title": "cal_bbbv_exp computes the same 3BV as cal_bbbv on expert boards", "statement": "For every 16x30 board with correct numbers, cal_bbbv_exp(board) = cal_bbbv(board).", "quantifier": "all 16x30 mine layouts", "why_tests_cant": "2^480 layouts.", "anchors": ["base/src/utils.rs:cal_bbbv_exp", "base/src/utils.rs:cal_bbbv"]}
{"id": "C10", "title": "refresh_board opens exactly the right cells", "statement": "Opening a list of cells reveals exactly the least set that contains the requested cells and, with each revealed zero, all its still-covered non-flagged neighbours; revealed cells show their true value, a revealed mine shows 15 (and then wrongly flagged safe cells show 14), every other cell is untouched, flagged cells are never opened by the cascade, and the procedure terminates.", "quantifier": "all boards, all game boards of the same shape, all lists of clicks", "why_tests_cant": "Cascade shape and termination are inductive; flags in the middle of openings create shapes tests do not cover.", "anchors": ["base/src/utils.rs:refresh_board"]}
{"id": "C11", "title": "SafeBoard is observationally the plain board for every random encoding", "statement": "For every board with cell values the library uses and every outcome of the random masks, SafeBoard::new(b) indexes, converts back (into_vec_vec), reports sizes and drives every generic algorithm exactly as b does, and the i32 arithmetic never overflows.", "quantifier": "all boards, all random draws", "why_tests_cant": "The encoding is randomised; the claim is about all draws and all 20 values.", "anchors": ["base/src/safe_board.rs:SafeBoard", "base/src/safe_board.rs:encode", "base/src/safe_board.rs:decode"]}
{"id": "C12", "title": "A game board never lies", "statement": "After any sequence of steps on MinesweeperBoard::new(b) with b a board with correct numbers, every cell of game_board that shows a number 0..8 shows the true value b has there; the remaining cells are 10 (covered), 11 (flag), and after a loss 14/15, where 15 only on mines and 14 only on wrongly flagged safe cells.", "quantifier": "all valid boards, all event sequences (any event names, any positions)", "why_tests_cant": "Unbounded histories of mouse events.", "anchors": ["base/src/videos/minesweeper_board.rs:MinesweeperBoard::step"]}
{"id": "C13", "title": "Win is declared exactly when every safe cell is open", "statement": "In every reachable state the game state is Win iff play has started, all non-mine cells are open; in particular a non-terminal state always has a covered safe cell, and a Win has no opened mine.", "quantifier": "all valid boards, all event sequences", "why_tests_cant": "The win test uses a cached scan pointer whose validity depends on the whole history.", "anchors": ["base/src/videos/minesweeper_board.rs:is_win", "base/src/videos/minesweeper_board.rs:step"]}
{"id": "C14", "title": "Loss is declared exactly when a mine was opened, and never together with a Win", "statement": "In every reachable state the game state is Loss iff some cell shows 15 (an opened mine); chording with a wrong flag that opens a mine always ends in Loss even if it opens all the remaining safe cells elsewhere.", "quantifier": "all valid boards, all event sequences", "why_tests_cant": "Requires the counting argument flags=number of mines for any chord in any history.", "anchors": ["base/src/videos/minesweeper_board.rs:chording_click", "base/src/videos/minesweeper_board.rs:left_click"]}
{"id": "C15", "title": "Terminal states are frozen", "statement": "Once the state is Win or Loss, any further step returns Ok(0) and changes nothing.", "quantifier": "all terminal states, events, positions", "why_tests_cant": "All histories after the end.", "anchors": ["base/src/videos/minesweeper_board.rs:step"]}
{"id": "C16", "title": "The flag counter equals the flags on the board", "statement": "In every reachable non-lost state `flag` is the number of cells showing 11; after a loss it is the number of cells showing 11 or 14; it never underflows.", "quantifier": "all valid boards, all event sequences", "why_tests_cant": "Counter coherence over unbounded toggling, pre-flagging and chording histories.", "anchors": ["base/src/videos/minesweeper_board.rs:right_click", "base/src/videos/minesweeper_board.rs:step", "base/src/videos/minesweeper_board.rs:clear_click_num"]}
{"id": "C17", "title": "step never panics on well-formed mouse input", "statement": "For any sequence of the standard events lc, lr, rc, rr, mv, cc, mc with positions on the board or at the conventional outside point (row,column), step never panics (no index out of bounds, no counter underflow).", "quantifier": "all boards, all event sequences", "why_tests_cant": "Panics appear only for particular orders (right press outside, then a chord release).", "anchors": ["base/src/videos/minesweeper_board.rs:step"]}
{"id": "C18", "title": "reset() returns the machine to the state of a fresh machine", "statement": "After any history, reset() leaves the machine indistinguishable from MinesweeperBoard::new on an all-zero board of the same size: every later sequence of steps behaves identically.", "quantifier": "all histories before and all sequences after the reset", "why_tests_cant": "Quantifies over pairs of histories.", "anchors": ["base/src/videos/minesweeper_board.rs:reset"]}
{"id": "C19", "title": "step_flow is the composition of step", "statement": "step_flow(ops1 ++ ops2) equals step_flow(ops1) then step_flow(ops2), it stops at the first Err, and two runs of the same operations from the same state agree.", "quantifier": "all operation lists", "why_tests_cant": "Unbounded lists.", "anchors": ["base/src/videos/minesweeper_board.rs:step_flow"]}
{"id": "C20", "title": "The usefulness level returned by step describes the effect", "statement": "During play, step returning Ok(1) toggled exactly one cell between covered and flag; Ok(2)/Ok(3) opened at least one covered cell without touching flags unless the game was lost; Ok(0) leaves the game board unchanged unless the step lost the game; Err leaves the game board unchanged.", "quantifier": "all reachable states, events, positions", "why_tests_cant": "All histories.", "anchors": ["base/src/videos/minesweeper_board.rs:step", "base/src/videos/minesweeper_board.rs:left_click", "base/src/videos/minesweeper_board.rs:right_click", "base/src/videos/minesweeper_board.rs:chording_click"]}
{"id": "C21", "title": "Effective clicks never exceed clicks", "statement": "In every reachable state ce <= left + right + double, and a mine contributes at most one flagging ce.", "quantifier": "all valid boards, all event sequences", "why_tests_cant": "Depends on long pre-flag/un-flag histories.", "anchors": ["base/src/videos/minesweeper_board.rs:right_click", "base/src/videos/minesweeper_board.rs:clear_click_num", "base/src/videos/base_video.rs:get_corr"]}
{"id": "C22", "title": "bbbv_solved reaches the board's 3BV exactly at the win", "statement": "When the game is won, bbbv_solved equals cal_bbbv(board); before that it never exceeds it.", "quantifier": "all valid boards, all winning event sequences", "why_tests_cant": "Depends on the order in which openings are opened and flagged.", "anchors": ["base/src/videos/minesweeper_board.rs:bbbv_solved", "base/src/videos/minesweeper_board.rs:cell_is_op_completed", "base/src/utils.rs:cal_bbbv"]}
{"id": "C23", "title": "EVF generation followed by parsing is the identity", "statement": "For every finished game record within the format's field widths (no zero byte in the identification strings), generate_evf_v0_raw_data followed by EvfVideo parsing recovers the flags, size, mine count, 3BV, result, mode, strings, mine positions, every event (time, button, x, y) in order and the checksum.", "quantifier": "all records: all boards, event lists, strings, flags", "why_tests_cant": "Bit packing and variable-length fields must invert for every content and every bit alignment.", "anchors": ["base/src/videos/base_video.rs:generate_evf_v0_raw_data", "base/src/videos/evf_video.rs:parse_video"]}
{"id": "C24", "title": "EVF parsing never panics and detects truncation", "statement": "For every byte string parse_video terminates with Ok or Err; every proper prefix of the header+board of a generated file yields Err(FileIsTooShort).", "quantifier": "all byte strings", "why_tests_cant": "2^(8n) inputs.", "anchors": ["base/src/videos/evf_video.rs:parse_video", "base/src/videos/base_video.rs:get_u8"]}
{"id": "C25", "title": "set_checksum replaces exactly the checksum of a generated EVF", "statement": "After generation, set_checksum(c) yields the bytes generation with checksum c would have produced; repeated calls leave the last checksum; nothing before the event terminator changes.", "quantifier": "all records, all checksum call sequences", "why_tests_cant": "Depends on history of calls.", "anchors": ["base/src/videos/base_video.rs:set_checksum", "base/src/videos/base_video.rs:generate_evf_v0_raw_data"]}
{"id": "C26", "title": "is_solvable is sound: a board it accepts can be solved without guessing", "statement": "is_solvable(board,x0,y0) terminates without panic on every correctly numbered board of at least 3x3 and safe start. If it returns true then starting from opening (x0,y0) there is an order in which every safe cell is opened, each opening being of a cell that is mine-free in every mine layout consistent with the numbers shown at that moment (hence no mine is ever opened). If the start shows 0 and it returns false then no such order exists, or without guessing one can reach a position with more than 55 covered border cells.", "quantifier": "all boards with correct numbers, all start cells", "why_tests_cant": "Soundness w.r.t. all consistent layouts.", "anchors": ["base/src/algorithms.rs:is_solvable", "base/src/algorithms.rs:solve_minus", "base/src/algorithms.rs:solve_direct", "base/src/algorithms.rs:solve_enumerate"]}
{"id": "C27", "title": "solve_minus only deduces forced cells", "statement": "Every cell solve_minus reports as mine (safe) is a mine (safe) in every assignment of mines satisfying the equation system it was given; it leaves an equivalent system and marks exactly the reported cells on the game board. It finds exactly what one look at all pairs of equations, followed by one look at the single equations, finds: no such cell is missed.", "quantifier": "all satisfiable equation systems with 0/1 coefficients (on unsatisfiable systems solve_minus may report contradictory cells and drop the contradiction: see solve_minus_unsat_example)", "why_tests_cant": "Universally quantified over assignments.", "anchors": ["base/src/algorithms.rs:solve_minus"]}
{"id": "C28", "title": "solve_direct only deduces forced cells", "statement": "Every cell solve_direct reports as mine (safe) is a mine (safe) in every assignment satisfying the equation system, the remaining system is equivalent, and marked cells are exactly the reported ones. It finds exactly what one look at the single equations, for mines and then for safe cells, finds: no such cell is missed.", "quantifier": "all equation systems with 0/1 coefficients", "why_tests_cant": "Universally quantified over assignments.", "anchors": ["base/src/algorithms.rs:solve_direct"]}
{"id": "C29", "title": "solve_enumerate finds all forced cells and only those", "statement": "For every satisfiable block within the size limit, the cells solve_enumerate reports as safe (mine) are exactly the cells that are safe (mine) in every solution.", "quantifier": "all 0/1 equation systems", "why_tests_cant": "Universally quantified over solutions.", "anchors": ["base/src/algorithms.rs:solve_enumerate", "base/src/utils.rs:cal_table_minenum_recursion", "base/src/utils.rs:enum_comb"]}
{"id": "C30", "title": "The matrix built from a game board expresses exactly its constraints", "statement": "refresh_matrix / refresh_matrixs produce equations whose 0/1 solutions are exactly the mine placements on frontier cells consistent with all shown numbers (counting cells already marked as mines); each frontier cell appears exactly once, and the inland-cell count and mine count are exact.", "quantifier": "all game boards", "why_tests_cant": "All boards and all assignments.", "anchors": ["base/src/utils.rs:refresh_matrix", "base/src/utils.rs:refresh_matrixs"]}
{"id": "C31", "title": "Splitting an equation system into blocks loses nothing", "statement": "chunk_matrix / chunk_matrixes return blocks whose cells partition the cells and whose joint solutions are exactly the solutions of the input; blocks are independent. Every equation is kept and two cells are in one block exactly if a chain of equations ties them together.", "quantifier": "all equation systems where every equation has a cell", "why_tests_cant": "All systems and assignments.", "anchors": ["base/src/utils.rs:chunk_matrix", "base/src/utils.rs:chunk_matrixes"]}
{"id": "C32", "title": "cal_possibility returns the exact mine probability", "statement": "For every consistent game board within the enumeration limit, the probability returned for a cell equals (number of mine layouts with the given total consistent with the numbers in which the cell is a mine) / (number of all such layouts), and the off-frontier probability likewise; up to floating point rounding.", "quantifier": "all consistent game boards, all mine totals", "why_tests_cant": "Counting argument over exponentially many layouts.", "anchors": ["base/src/algorithms.rs:cal_possibility", "base/src/algorithms.rs:cal_possibility_onboard", "base/src/utils.rs:C", "base/src/utils.rs:BigNumber"]}
{"id": "C33", "title": "The enumeration table counts every solution exactly once", "statement": "cal_table_minenum_recursion returns, for every total mine count occurring, the exact number of 0/1 solutions with that many mines and, per cell, the number of those in which the cell is a mine; the mine counts are listed without repetition; an unsatisfiable system is reported as an error.", "quantifier": "all satisfiable systems with at most ENUM_LIMIT cells", "why_tests_cant": "Exact counting of all solutions.", "anchors": ["base/src/utils.rs:cal_table_minenum_recursion", "base/src/utils.rs:cal_table_minenum_recursion_step", "base/src/utils.rs:combine", "base/src/utils.rs:enum_comb"]}
{"id": "C34", "title": "laymine_solvable returns true only with a board that is solvable from the start", "statement": "On boards of at least 3x3 with room for the mines outside the 3x3 block of the start: for every thread schedule and all shuffles, laymine_solvable_thread terminates without panic after at most max_times tries, every board returned has the requested size and mines, right numbers and a start showing 0, and if the flag is true then is_solvable(board,x0,y0) holds. The same for the single-threaded laymine_solvable, whose flag is false only if none of the max_times boards tried was accepted.", "quantifier": "all schedules of the worker threads, all shuffles", "why_tests_cant": "Thread interleavings.", "anchors": ["base/src/algorithms.rs:laymine_solvable", "base/src/algorithms.rs:laymine_solvable_thread"]}
{"id": "C35", "title": "unsolvable_structure reports only genuinely ambiguous boards", "statement": "On every board with at least three rows and columns unsolvable_structure(board) is true exactly when the board contains a dead structure: a safe cell all of whose neighbours are mines; two orthogonal neighbours, one mine and one safe, such that every other cell seeing only one of them is a mine; or a 2x2 square of alternating mines and safe cells (a board corner in it being arbitrary) whose outer diagonal neighbours are mines. Whenever it is true there is a different mine layout that the numbers of the cells safe in both cannot distinguish (the number of mines is not considered), and the board cannot be solved without guessing from any start showing 0.", "quantifier": "all boards with correct numbers", "why_tests_cant": "Pattern must be a genuine ambiguity at every position and border.", "anchors": ["base/src/utils.rs:unsolvable_structure"]}
{"id": "C36", "title": "legalize_board makes every shown number possible", "statement": "After legalize_board every cell has a legal display value, every shown number is at most the number of covered neighbours, and a second application changes nothing.", "quantifier": "all boards of arbitrary integers", "why_tests_cant": "All boards.", "anchors": ["base/src/utils.rs:legalize_board"]}
{"id": "C37", "title": "is_good_chording never panics and only approves safe chords", "statement": "For every game board and position on the board, is_good_chording returns without panicking, and it returns true exactly when the position shows a number equal to the flags around it, at least one covered cell is around it, and no orthogonally adjacent cell can be chorded to open more covered cells.", "quantifier": "all game boards and positions", "why_tests_cant": "Border positions.", "anchors": ["base/src/utils.rs:is_good_chording", "base/src/utils.rs:surround_cell_num"]}
{"id": "C38", "title": "Seeking by time shows the state at that time", "statement": "After set_current_time(t) the current event is the last one not later than t (clamped to the recording), independent of the previous position, and repeating the call changes nothing.", "quantifier": "all recordings with sorted times, all seek histories", "why_tests_cant": "Depends on previous position.", "anchors": ["base/src/videos/base_video.rs:set_current_time", "base/src/videos/base_video.rs:set_current_event_id"]}
{"id": "C39", "title": "get_game_board_poss has the board's shape", "statement": "On a displayed video get_game_board_poss returns a matrix with the same height and width as the board at every event.", "quantifier": "all videos, all positions", "why_tests_cant": "Non-square boards / first event.", "anchors": ["base/src/videos/base_video.rs:get_game_board_poss"]}
{"id": "C40", "title": "Winning flags all mines; losing uncovers all mines", "statement": "win_then_flag_all_mine turns exactly the covered cells (10) of a won game into flags, giving flags exactly on all mines; loss_then_open_all_mine shows exactly all unflagged mines; neither changes an opened number.", "quantifier": "all reachable terminal states", "why_tests_cant": "All histories.", "anchors": ["base/src/videos/base_video.rs:win_then_flag_all_mine", "base/src/videos/base_video.rs:loss_then_open_all_mine"]}
{"id": "C41", "title": "mark_board marks only certain cells", "statement": "mark_board changes only covered cells, marks 11 only cells that are mines in every consistent layout and 12 only cells safe in every consistent layout, and it is an error only on inconsistent boards. The marked cells are exactly those that one look at the numbers, one at the pairs of numbers and another at the numbers find.", "quantifier": "all game boards", "why_tests_cant": "Quantified over all consistent layouts.", "anchors": ["base/src/algorithms.rs:mark_board", "base/src/algorithms.rs:get_all_not_and_is_mine_on_board"]}
{"id": "C42", "title": "The js shuffle is a permutation and reaches every arrangement", "statement": "shuffle_ returns a permutation of its input for every random stream, indices stay in range, and every arrangement is reachable.", "quantifier": "all lists and random streams", "why_tests_cant": "All random outcomes.", "anchors": ["base/src/utils.rs:shuffle_", "base/src/utils.rs:get_random_int"]}
{"id": "C43", "title": "AVF/RMV/MVF parsing never panics", "statement": "For every byte string the parsers return Ok or Err, never panic.", "quantifier": "all byte strings", "why_tests_cant": "Unbounded input space.", "anchors": ["base/src/videos/avf_video.rs:parse_video", "base/src/videos/rmv_video.rs:parse_video", "base/src/videos/mvf_video.rs:parse_video"]}
{"id": "C44", "title": "Guess classification is consistent with the exact analysis", "statement": "On every board that some layout explains: is_able_to_solve(board,cell) is true exactly for covered cells next to a number whose status is the same in every explaining layout; is_guess_while_needless answers for every cell, 5 exactly on open cells, 1 only on certainly safe cells, 4 only on certain mines, 3 only if the clicked cell is not certainly safe while some other cell is, 2 only if no cell around the region is certainly safe.", "quantifier": "all consistent game boards, all cells", "why_tests_cant": "Quantified over all layouts.", "anchors": ["base/src/algorithms.rs:is_able_to_solve", "base/src/algorithms.rs:is_guess_while_needless"]}
{"id": "C45", "title": "C(n,k) and C_query are binomial coefficients", "statement": "C(n,k) (as an exact BigNumber value) and C_query(n,k) equal the binomial coefficient for all n,k with k<=n, and C_query never overflows/underflows in its documented range.", "quantifier": "all n,k", "why_tests_cant": "Unbounded n,k.", "anchors": ["base/src/utils.rs:C", "base/src/utils.rs:C_query"]}
{"id": "C46", "title": "Regenerating an EVF keeps the checksum that was set", "statement": "On a finished game, after generate_evf_v0_raw_data and any number of set_checksum calls, calling generate_evf_v0_raw_data again yields the same bytes, i.e. the last checksum set.", "quantifier": "all records and all sequences of generate / set_checksum calls", "why_tests_cant": "Depends on the history of calls.", "anchors": ["base/src/videos/base_video.rs:set_checksum", "base/src/videos/base_video.rs:generate_evf_v0_raw_data"]}
{"id": "C47", "title": "laymine_solvable_adjust returns the board asked for", "statement": "For every size, start and possible mine count laymine_solvable_adjust returns (it neither panics nor runs forever): a board of that size with correct numbers, exactly the requested number of mines, none of them at or (when there is room) around the start; when the returned flag is true, the board can be solved from the start without guessing.", "quantifier": "all sizes, starts, mine counts and outcomes of every shuffle", "why_tests_cant": "Recursive backtracking search driven by random shuffles; wrong boards appear only for some of them.", "anchors": ["base/src/algorithms.rs:laymine_solvable_adjust", "base/src/algorithms.rs:adjust_step", "base/src/algorithms.rs:adjust_the_area_on_board"]}
{"id": "C48", "title": "A recording is a gapless account of the game", "statement": "In every session of step, set_board, set_pix_size and reset on a live BaseVideo: before the first event nothing is recorded; afterwards the board stream starts with the covered board, the first event lies on the board at time 0, every event refers to boards of the stream (the same one when its useful_level is 0, consecutive ones otherwise), each event starts from the board where the previous one ended and is no earlier; every accepted step appends exactly one event carrying the event name, position, milliseconds since the recording began and the game machine's counters, with the boards before and after it; refused events and events after the end change nothing.", "quantifier": "all boards, pixel sizes, clocks and histories of calls", "why_tests_cant": "Ids, times and boards must stay linked after any history of clicks, flags taken back, refused events and resets.", "anchors": ["base/src/videos/base_video.rs:step", "base/src/videos/base_video.rs:reset", "base/src/videos/base_video.rs:set_board"]}
{"id": "C49", "title": "rtime is the time from the first opened cell to the end", "statement": "When a live game is won or lost, get_rtime_ms is the time of the last event minus the time of the first event that opened a cell, and is_completed is true exactly after a win.", "quantifier": "all sessions, all clocks", "why_tests_cant": "Depends on the whole history, including earlier games on the same object.", "anchors": ["base/src/videos/base_video.rs:step", "base/src/videos/base_video.rs:get_rtime_ms"]}
{"id": "C50", "title": "Replaying a recording reproduces the game", "statement": "The events recorded by a live session, run through analyse on the same board (directly, or after being written to an EVF file and parsed), give the same stream of boards, the same final state and board, and for every event the same level, board ids, mouse state and counters.", "quantifier": "all sessions", "why_tests_cant": "The live recorder and analyse are different pieces of code fed by all histories, including retracted flags, refused events, boards loaded late and outside clicks.", "anchors": ["base/src/videos/base_video.rs:step", "base/src/videos/base_video.rs:analyse", "base/src/videos/evf_video.rs:parse_video"]}
{"id": "C51", "title": "Recording never panics", "statement": "In every session, step on a live BaseVideo panics only if the game machine's step does, and get_time never panics.", "quantifier": "all sessions, all clocks", "why_tests_cant": "Underflows depend on sub-millisecond timing and on earlier games played on the same object.", "anchors": ["base/src/videos/base_video.rs:step", "base/src/videos/base_video.rs:get_time"]}
{"id": "C52", "title": "analyse makes a faithful replay of any list of events", "statement": "Whatever the events of a file, in whatever order: if analyse returns, every event carries the level and counters of a game machine driven by the events up to it; its board ids are valid; the first event starts at the covered board, each other where the previous one ended; every board of the stream is a position of a game on the file's board (only correct numbers, no mine as a number); the zero of the clock is the event that opened the first cell; and while playing, after any calls of set_current_time, set_current_event_id and get_game_board_poss, the board shown is the one after the current event. If the board in pixels fits 16 bits, analyse panics exactly if the game machine panics on or refuses one of the events.", "quantifier": "all boards with correct numbers, all lists of events (any order, times and positions), all histories of player calls", "why_tests_cant": "Files come from elsewhere: the events are arbitrary, the machine goes back to its initial state, and boards are shared by ids.", "anchors": ["base/src/videos/base_video.rs:analyse", "base/src/videos/base_video.rs:get_game_board", "base/src/videos/base_video.rs:set_current_time"]}
{"id": "C53", "title": "GameBoard answers exactly and independently of the order of questions", "statement": "A GameBoard given a board that some layout explains answers get_basic_not_mine, get_basic_is_mine, get_enum_not_mine, get_enum_is_mine and get_poss without panicking, with the same answers whatever was asked before; the certain cells listed are certain in every layout explaining the board (player's marks apart), complete for safe cells while at most 55 covered cells lie next to numbers; and get_poss is for every cell exactly the share of layouts with the given number of mines that have a mine there.", "quantifier": "all boards with a layout, all numbers of mines from 1, all histories of questions", "why_tests_cant": "The answers are cached and computed from a board that earlier questions have marked.", "anchors": ["base/src/board.rs:GameBoard", "base/src/algorithms.rs:cal_possibility_onboard", "base/src/algorithms.rs:solve_minus"]}
{"id": "C54", "title": "Cut and lengthened AVF/RMV/MVF files; what is read is well-formed", "statement": "If a file is read, so is the file followed by anything, with the same video; cut anywhere within the bytes that were read, it is refused (FileIsTooShort; FileIsEmpty for no bytes, the not-an-RMV-file error for fewer than six bytes of RMV); a file refused for its contents stays refused whatever follows. Whatever file is accepted, the board has the announced size and at least one row, every number on it is correct, it has at most the announced number of mines, and there is at least one event (MVF: or the file is not an MVF 0.97 file and the video is empty).", "quantifier": "all byte strings, all cut points, all continuations", "why_tests_cant": "Every cut point of every file.", "anchors": ["base/src/videos/avf_video.rs:parse_video", "base/src/videos/rmv_video.rs:parse_video", "base/src/videos/mvf_video.rs:parse_video", "base/src/videos/base_video.rs:get_u8"]}
{"id": "C55", "title": "The AVF, RMV and MVF readers accept exactly the files of their layouts", "statement": "For each format, parse_video returns Ok exactly for the byte strings made of the parts of the format (header, board, texts, events, in their order and with their separators, announced lengths and ranges), and the video it leaves is the one those parts stand for: size, level, mode, board, 3BV, time, player, and the list of events with name, time and point. For MVF the order of the forty bits of an event is the unique one sorted by the digits of the code, five bytes mean exactly one record, and every record can be written.", "quantifier": "all byte strings", "why_tests_cant": "A sample of files does not show what else is accepted, nor that no field is misread for some values.", "anchors": ["base/src/videos/avf_video.rs:parse_video", "base/src/videos/rmv_video.rs:parse_video", "base/src/videos/mvf_video.rs:parse_video"]}
{"id": "C56", "title": "Guess analyses comment exactly the guesses they are named after", "statement": "analyse_for_features on an analysed video: high_risk_guess comments exactly the openings whose cell, given only the numbers visible before, is a mine in at least 51 % of the layouts, naming the probability of being right; jump_judge comments exactly the openings (and flags) of cells the enumeration, but not the basic rules, proves safe (mines); needless_guess comments exactly the openings of a cell with a risk although another cell was known to be safe; survive_poss says the product of the probabilities of having survived the risky openings; none of them panics or removes a comment, in whatever order they are run.", "quantifier": "all boards with correct numbers, all event lists that can be analysed, all orders of analyses, positions within reach of the enumeration", "why_tests_cant": "The probabilities and certainties are counts over all layouts of the position met at every event of every game.", "anchors": ["base/src/videos/analyse_methods.rs:analyse_high_risk_guess", "base/src/videos/analyse_methods.rs:analyse_jump_judge", "base/src/videos/analyse_methods.rs:analyse_needless_guess", "base/src/videos/analyse_methods.rs:analyse_survive_poss", "base/src/videos/base_video.rs:analyse_for_features"]}
{"id": "C57", "title": "mouse_trace and vision_transfer", "statement": "mouse_trace comments the first of each two consecutive clicks exactly if the mouse's way to the second is more than 7 (or more than 3.5) times their distance; vision_transfer comments the first of each two consecutive openings exactly if the second is at least 112 pixels away and a cell known to be safe on the board before the second lies within 3 rows and columns of the first; the first event counts as a click and as an opening; all other events keep their comments; on a video without events both panic.", "quantifier": "all analysed videos, all orders of analyses, every distance function that is 0 from a point to itself and never negative", "why_tests_cant": "Every sequence of clicks and movements.", "anchors": ["base/src/videos/analyse_methods.rs:analyse_mouse_trace", "base/src/videos/analyse_methods.rs:analyse_vision_transfer"]}
{"id": "C58", "title": "super_fl_local finds the textbook runs of flags and chords", "statement": "super_fl_local never panics on an analysed video and comments exactly the first events of the runs of correct flags and good chords, not interrupted by a left click, a wrong flag, a useless or bad chord or a jump of more than 4 cells, with at least five steps up to their last chord, naming that number.", "quantifier": "all analysed videos, all orders of analyses", "why_tests_cant": "Every sequence of events; the state machine of the analysis must agree with the description of runs in every history.", "anchors": ["base/src/videos/analyse_methods.rs:analyse_super_fl_local", "base/src/utils.rs:is_good_chording"]}
{"id": "C59", "title": "The statistics shown are those of the game up to the moment shown", "statement": "While a video is played, after any seeking and jumping, get_left, get_right, get_double, get_cl, get_flag, get_ce, get_bbbv_solved and get_mouse_state are the counters of the game played by the events up to the one shown; the rates, corr, thrp, ioe, etime, rqp, qg and stnb are the quotients of these counters and the time shown, 0 where there is nothing to divide by, and never infinite or a panic; get_x_y is the last position left of the right edge, scaled; the totals stored by analyse are those of the whole game. In a live recording the counters are those of the game, the solved ones can be asked for only at its end, and the rates then refer to the duration of the game.", "quantifier": "all videos on numbered boards, all sequences of player calls, all live sessions, all clock readings", "why_tests_cant": "Every event sequence, every position of the player, including before the game starts, at time 0 and at zero counters, where a missing guard gives infinities.", "anchors": ["base/src/videos/base_video.rs:get_left", "base/src/videos/base_video.rs:get_left_s", "base/src/videos/base_video.rs:get_etime", "base/src/videos/base_video.rs:get_stnb", "base/src/videos/base_video.rs:get_corr", "base/src/videos/base_video.rs:get_x_y", "base/src/videos/base_video.rs:gather_params_after_game", "base/src/videos/base_video.rs:analyse"]}
{"id": "C60", "title": "is_valid accepts exactly the completed games of the accepted programs with enough events", "statement": "is_valid never panics; it answers 0 exactly for completed games with at least ten events per 3BV of Arbiter, of Viennasweeper before 24 April 2023, or of the Metasweeper if the game is fair and the checksum is not constant; 3 exactly for those with fewer events; 1 for all others.", "quantifier": "all videos, and all accepted AVF, RMV, MVF and EVF files", "why_tests_cant": "Every file a reader accepts, every start time and checksum.", "anchors": ["base/src/videos/base_video.rs:is_valid", "base/src/videos/rmv_video.rs:parse_video", "base/src/videos/avf_video.rs:parse_video", "base/src/videos/mvf_video.rs:parse_video"]}
{"id": "C61", "title": "sample_3BVs_exp returns a histogram of n expert boards with a safe first cell", "statement": "sample_3BVs_exp(x0, y0, n) does not panic for a first cell on the 16x30 board; whatever the sixteen threads and their shuffles do, the result has 382 entries that add up to the number of boards made (n), entry k counts the boards whose 3BV is k, and every board has 99 mines, correct numbers and a safe first cell.", "quantifier": "all first cells, all n, all shuffles in all threads", "why_tests_cant": "Every shuffle of 479 cells in sixteen threads; an index out of the histogram would show only on extremely rare boards.", "anchors": ["base/src/algorithms.rs:sample_3BVs_exp", "base/src/algorithms.rs:laymine_study_exp", "base/src/utils.rs:cal_bbbv_exp"]}
{"id": "C62", "title": "enuOneStep enumerates exactly the ways of deciding the open cells of one more equation", "statement": "enuOneStep(table, cells, b), for a table that is not empty and whose rows leave the same cells open (2), does not panic and returns a table that holds exactly the rows obtained from a row of the table by deciding its open cells among `cells` as 0 or 1 such that `cells` hold b mines, none of them twice when the table had no row twice, again with the same cells open in all rows. Hence feeding it the equations of a solvable system one by one, from the row that leaves all cells open, ends with the list of all solutions of the system.", "quantifier": "all tables, all equations, all numbers of mines, all systems of equations in any number of cells", "why_tests_cant": "Ranges over all systems of equations and all partial tables; the loop appends to and deletes from the table it walks.", "anchors": ["base/src/utils.rs:enuOneStep", "base/src/utils.rs:enumerateSub"]}
{"id": "C63", "title": "enum_comb lists exactly the distributions of mines over merged cells, each once", "statement": "enum_comb(A, x, b), for a matrix whose columns each have one positive value (the number of cells merged), rows that hold at most 255 cells, and right-hand sides 0..255, returns without repetition exactly the vectors that give every column between 0 and its value of mines such that every row's columns add up to its right-hand side.", "quantifier": "all squeezed systems of any number of rows and columns", "why_tests_cant": "Ranges over all systems; the table is extended and filtered row by row, and a solution lost at any row would only show for systems of one particular shape.", "anchors": ["base/src/utils.rs:enum_comb"]}
{"id": "C64", "title": "cal_table_minenum_enum counts exactly and agrees with cal_table_minenum_recursion", "statement": "For every block of 0/1 equations (each cell in some equation, each equation with a cell, right-hand sides 0..255, at most 255 cells and 45 merged cells), cal_table_minenum_enum does not panic; if the block has a solution it returns exactly the numbers of mines that occur, each once, with the exact number of solutions and, per cell, of solutions with a mine there, that is, the lines of cal_table_minenum_recursion whose count is not 0; if the block has none it returns error 1; above 45 merged cells error 0.", "quantifier": "all blocks of equations", "why_tests_cant": "Ranges over all systems of equations; two different algorithms must give the same counts on each.", "anchors": ["base/src/utils.rs:cal_table_minenum_enum", "base/src/utils.rs:enum_comb", "base/src/utils.rs:cal_table_minenum_recursion"]}
{"id": "C65", "title": "Times survive the conversions between seconds and milliseconds", "statement": "With f64 rounding taken into account: a time of n milliseconds (n < 2^32) kept as n/1000 seconds and converted back with s_to_ms is n again; s_to_ms is monotone, gives 0 for negative times and is within half a millisecond plus the error of one product of the true time; the time stamp of a live event is the millisecond nearest to the microseconds passed (halves upwards) and never decreases; the times that AVF and MVF files state in seconds and hundredths or thousandths become exactly those milliseconds.", "quantifier": "all times below 2^32 ms, all f64 inputs of s_to_ms, all pairs of clock readings, all fields of files", "why_tests_cant": "Ranges over 2^32 time stamps and all doubles; one rounding that goes the wrong way would shift a single event and change replays.", "anchors": ["base/src/miscellaneous.rs:s_to_ms", "base/src/miscellaneous.rs:time_ms_between", "base/src/videos/base_video.rs:step", "base/src/videos/mvf_video.rs:parse_video", "base/src/videos/avf_video.rs:parse_video"]}
{"id": "C66", "title": "save_to_evf_file writes everything to a new file and never damages an old one", "statement": "save_to_evf_file(name) returns with the complete raw data in a file of its own, the first free one of name.evf, name(2).evf, name(3).evf, …, and changes nothing else; a crash at any point leaves every existing file as it was and at most one new file that holds a beginning of the data; calls one after the other all keep their data; calls side by side, under any schedule and any crashes, never touch a file that was there before, and calls that have returned keep their data.", "quantifier": "all names, all data, all finite disks, all sequences of calls, all schedules of concurrent calls and all crash points", "why_tests_cant": "Ranges over all interleavings and crash points of calls that look for a free name and then create it.", "anchors": ["base/src/videos/base_video.rs:save_to_evf_file"]}
{"id": "C67", "title": "Through any history of a video object, the file of a finished game tells the truth", "statement": "Whatever sequence of public calls (mouse events, resets, boards, cell sizes, marks, texts, checksums, file generations; accepted or refused) a program makes on a BaseVideo created before a game: when a game is over that has a board (at most 255 x 255 cells, less than 2^24 ms of recording), generate_evf_v0_raw_data does not panic and parsing its output returns whether that game was won, its time, its mine count and 3BV, its board, its events in order, the marks and texts as last accepted, and the checksum set for that game (zeros if none was set). Setters of marks are accepted exactly when the game is over (software also before one), change their own field only; the start and end time are taken exactly when play starts and ends; a reset keeps the marks and empties recording and bytes.", "quantifier": "all histories of public calls, all boards with correct numbers, all marks, texts and checksums", "why_tests_cant": "Ranges over all interleavings of recording, marking, resetting and writing; a field that survives from an earlier game only shows in particular sequences.", "anchors": ["base/src/videos/base_video.rs:step", "base/src/videos/base_video.rs:reset", "base/src/videos/base_video.rs:set_board", "base/src/videos/base_video.rs:set_is_offical", "base/src/videos/base_video.rs:set_software", "base/src/videos/base_video.rs:set_checksum", "base/src/videos/base_video.rs:generate_evf_v0_raw_data", "base/src/videos/evf_video.rs:parse_video"]}
{"id": "C68", "title": "The Python and wasm packages return the exact probabilities of the caller's board", "statement": "cal_possibility and cal_possibility_onboard of the Python package (and cal_possibility_onboard of the wasm package) return, for the board and mine number given, the exact probabilities: every covered cell gets the share of the layouts with that many mines agreeing with the numbers that have a mine there (marks 11/12 taken as right), with the least possible, used and greatest mine number; they raise (wasm: return an empty matrix) exactly when no layout explains the board, and never panic.", "quantifier": "all boards with numbers within the reach of the enumeration, all mine numbers and densities", "why_tests_cant": "The functions mark certain cells on a copy before counting; that this changes no probability has to hold for every board.", "anchors": ["python_package/src/lib.rs:py_cal_possibility", "python_package/src/lib.rs:py_cal_possibility_onboard", "wasm/src/lib.rs:cal_possibility_onboard", "base/src/algorithms.rs:mark_board", "base/src/algorithms.rs:cal_possibility_onboard"]}
{"id": "C69", "title": "A hand on a two-button mouse is never refused and always followed", "statement": "For every board and every sequence of events a hand can make on a mouse with two buttons (press a button that is up, let go a button that is down, move; with reset and new boards only when both buttons are up), step never returns an error and never panics, so step and step_flow of the Python and wasm board classes, which panic on an error, never panic; and while the game is not over the mouse state shown agrees with the buttons.", "quantifier": "all boards with correct numbers, all sequences of physical mouse events at all cells and outside the board, all resets and reloads", "why_tests_cant": "Ranges over all event sequences; the wrong transitions only show after particular combinations of buttons, positions and game phases.", "anchors": ["base/src/videos/minesweeper_board.rs:step", "base/src/videos/minesweeper_board.rs:step_flow", "base/src/videos/minesweeper_board.rs:reset", "python_package/src/board.rs:step", "python_package/src/board.rs:step_flow", "wasm/src/board.rs:step"]}
{"id": "C70", "title": "get_game_board_2 of the Python board classes shows the game and its exact probabilities", "statement": "In every state a game can reach, get_game_board_2 with the true mine number does not raise and returns two matrices of the size of the board: the board shown (covered -1, flag -2), and for every cell that shows no number the exact probability of a mine given the numbers shown and the mine number, whatever the flags; 0 on cells that show a number. It does not change the game.", "quantifier": "all boards with correct numbers and at least one mine, all reachable game states whose numbers are within the reach of the enumeration", "why_tests_cant": "Ranges over all game histories, and the probability is a count over all layouts.", "anchors": ["python_package/src/board.rs:get_game_board_2", "base/src/algorithms.rs:mark_board", "base/src/algorithms.rs:cal_possibility_onboard"]}
{"id": "C71", "title": "Every column of a picture gets its true edge score", "statement": "When the segmentation of a picture (ImageBoard::get_pos_pixel) rates the columns (rows) of the part it has cut out, nothing panics or underflows, every column of the part has a rating, and the rating is the greatest number of edge pixels on a path that runs along the column in the strip of five columns around it and ends in it, less one for each sidestep and less the distance between its ends; so it is the full length exactly for an unbroken line.", "quantifier": "all pictures of edges, all parts of them at least five columns wide", "why_tests_cant": "It is a statement about the best of exponentially many paths, for every picture.", "anchors": ["base/src/OBR.rs:get_c_sum", "base/src/OBR.rs:get_r_sum", "base/src/OBR.rs:get_pos_pixel"]}
{"id": "C72", "title": "Reading any picture ends in a board or an error", "statement": "OBR_board, given the raw data of any picture, returns an error or a board and does not panic: an error for pictures with a side of 24 pixels or less and for pictures without structure; a board it returns is rectangular, has at least four rows and columns, at most one cell for every 8 pixels, and shows only what a board can show (no number above its covered neighbours).", "quantifier": "all pixel data, heights and widths; whatever the recogniser of single cells answers", "why_tests_cant": "The space of pictures is beyond any testing; panics hide in index arithmetic, rounding and empty lists.", "anchors": ["base/src/algorithms.rs:OBR_board", "base/src/OBR.rs:new", "base/src/OBR.rs:get_pos_pixel", "base/src/OBR.rs:get_line", "base/src/OBR.rs:get_gradient", "base/src/OBR.rs:binarize_gradient", "base/src/OBR.rs:get_r12c12", "base/src/OBR.rs:narrow", "base/src/OBR.rs:extra_save_cell"]}
{"id": "C73", "title": "Evenly spaced lines are measured exactly", "statement": "From ratings in which the lines between cells stand out (full rating, evenly spaced 8 to 300 pixels apart, one or two pixels wide) get_line finds the exact size of the cells, the exact place of the first line and the exact number of cells.", "quantifier": "all ratings with evenly spaced lines: all sizes of cells, numbers of cells, places of the first line, lengths and ratings elsewhere", "why_tests_cant": "Ranges over unboundedly many sizes and ratings, with rounding of floats and ties between candidate sizes.", "anchors": ["base/src/OBR.rs:get_line"]}
{"id": "C74", "title": "A clear picture of a board is read cell by cell", "statement": "Given the raw data of a clear picture of a board (rows and columns of cells 8 to 300 pixels wide, neighbouring cells of different colours, margins around), OBR_board returns a board with exactly the rows and columns of the picture, in which each entry is what the recogniser makes of samples of that cell, made legal.", "quantifier": "all numbers of rows and columns, sizes of cells and margins, all recognisers", "why_tests_cant": "Ranges over all sizes; each step (edges, cut, ratings, lines, votes, sampling) can be off by one for particular sizes only.", "anchors": ["base/src/algorithms.rs:OBR_board", "base/src/OBR.rs:get_pos_pixel", "base/src/OBR.rs:extra_save_cell"]}
{"id": "C75", "title": "Counting layouts never overflows a machine word", "statement": "On every machine the library is built for (usize of 64 bits; of 32 bits on wasm32, where release builds wrap silently), the probabilities of cal_possibility and cal_possibility_onboard and the answers of solve_enumerate are those of exact counting: no board makes a count of layouts wrap. In particular the wasm package returns the exact probabilities.", "quantifier": "all boards, all mine numbers, both word sizes", "why_tests_cant": "Wrapped counts show only on boards with billions of layouts per connected region and look like plausible numbers; no finite set of boards excludes them.", "anchors": ["base/src/utils.rs:cal_table_minenum_recursion", "base/src/utils.rs:cal_table_minenum_recursion_step", "base/src/algorithms.rs:cal_possibility", "base/src/algorithms.rs:solve_enumerate", "wasm/src/lib.rs:cal_possibility_onboard"]}
{"id": "C76", "title": "Random boards are fair", "statement": "If the shuffle is uniform, so are the boards: laymine returns each correctly numbered board with the requested number of mines and a safe start for the same number of permutations, minenum!*(row*column-1-minenum)!; laymine_op likewise each board without a mine in the block of the start (boards of at least two rows and columns); laymine_solvable returns any two solvable boards with flag true equally often, over all shuffles of all tries, and any two boards at all equally often with flag false. The shuffle of the js build is itself uniform: its random indices and the permutations of the places correspond one to one.", "quantifier": "all sizes, mine numbers, starts, boards, numbers of tries; all permutations and all random draws", "why_tests_cant": "A bias between two of the astronomically many boards is invisible to any sample; equality must be counted over all permutations.", "anchors": ["base/src/utils.rs:laymine", "base/src/utils.rs:laymine_op", "base/src/utils.rs:shuffle_", "base/src/utils.rs:get_random_int", "base/src/algorithms.rs:laymine_solvable"]}
{"id": "C77", "title": "Floating point does not spoil the probabilities", "statement": "cal_possibility computes in f64, with an own big number type. On every board that some layout explains, its answer is that of exact arithmetic: the same errors, cells and mine numbers, NaN for NaN, and every probability within a relative error of (N+Q+35)*(Q/3+29)/2^50, where Q is the number of covered cells and N bounds the ways to distribute the mines over the groups of linked cells. So a probability is reported as exactly 0.0 if and only if no layout has a mine there. The converse for 1.0 is false: sure mines come out as 0.99999999999999989 on one board and as 1.0000000000000002 on another. cal_possibility_onboard gives the same by position, and cal_is_op_possibility_cells the exact opening chance up to an absolute error of 18 times that tolerance plus 2^-44 (NaN only where the chance is 0); but a chance of 0 can come out as a small negative number.", "quantifier": "all boards of at most 789 covered cells with at most 10^12 distributions, all mine numbers and densities, every rounding with the accuracy of f64", "why_tests_cant": "Rounding errors of thousands of chained operations with renormalised exponents could add up on some board; a test compares a few boards with a tolerance chosen by hand.", "anchors": ["base/src/algorithms.rs:cal_possibility", "base/src/utils.rs:BigNumber", "base/src/utils.rs:C", "base/src/algorithms.rs:cal_possibility_onboard", "base/src/algorithms.rs:cal_is_op_possibility_cells"]}
{"id": "C78", "title": "Python solvers on whole boards", "statement": "The solvers of the Python package that take a board work on a copy of it. On every board that some layout explains, solve_enumerate(board) never panics; if no group of linked cells has more than 55 it lists as safe exactly the covered cells next to numbers that are safe in every layout, and as mines exactly those that are mines in every layout and do not have the same numbers as another covered cell (otherwise it lists nothing, also where cells are certain); get_all_not_and_is_mine_on_board(board) returns the board of mark_board(board), lists every cell marked there, and lists only certain cells (cells found by enumeration are listed but not marked); mark_board(board) marks only certain cells, and on a contradictory board returns a half-marked board without an error; OBR_board returns [[200]] exactly when the picture is refused.", "quantifier": "all boards (rectangular ones for marking), all layouts; all pictures", "why_tests_cant": "Which cells are certain ranges over all layouts of a board, and completeness over all boards; a test knows the certain cells of a few positions only.", "anchors": ["python_package/src/lib.rs:py_solve_enumerate", "python_package/src/lib.rs:py_get_all_not_and_is_mine_on_board", "python_package/src/lib.rs:py_mark_board", "python_package/src/lib.rs:py_OBR_board"]}
{"id": "C79", "title": "Event names that leave open which button moved", "statement": "step documents event names that leave something open: l, r, m (the button is pressed or let go), cc (a second button is pressed), crl, crr (the left or right button of a chord is let go). At every moment of every game each of them does exactly what the press or release it stands for, given the buttons, would do (result, counters, board), and cc, crl, crr are refused without effect when they stand for nothing; so a game recorded with these names is the same game as with the plain names.", "quantifier": "all boards, all reachable states, all positions, all sequences of events of a hand on a mouse with three buttons and all ways to call them", "why_tests_cant": "Ranges over all event sequences and button states; the transitions of l, r, cc, crl, crr are written out separately from those of lc, lr, rc, rr.", "anchors": ["base/src/videos/minesweeper_board.rs:step", "base/src/videos/minesweeper_board.rs:step_flow"]}
{"id": "C80", "title": "Replacing the board during a game (guessing mode)", "statement": "BaseVideo::set_board accepts a new board while a game is being played (and MinesweeperBoard.board can be assigned, also through the Python and wasm set_board): in the guessing mode the mines may be moved as long as everything shown stays right. If every board given during the game has correct numbers, the same size, as many mines and agrees with every number shown, then at all times: numbers shown are true, the game is won exactly when every safe cell of the current board is open, lost exactly when an opened mine is shown, and the flag counter counts the flags.", "quantifier": "all boards, all sequences of events at all positions, all resets, and all replacements of the board at any moments, consistent with what is shown", "why_tests_cant": "Ranges over unbounded histories of events and replacements; is_win resumes its scan at a remembered cell, which is only valid for the board it scanned.", "anchors": ["base/src/videos/base_video.rs:set_board", "base/src/videos/minesweeper_board.rs:step", "base/src/videos/minesweeper_board.rs:is_win", "python_package/src/board.rs:set_board", "wasm/src/board.rs:set_board"]}
{"id": "C81", "title": "Boards handed to C programs", "statement": "The C functions laymine and cal_possibility_onboard hand out a board through raw pointers: reading rows[i].cells[j] for every row and column stays in bounds and gives the cells of the Rust result, no other memory changes, and free_board / free_board_poss give every block back with the size and alignment it was allocated with, so that allocating and freeing is never undefined behaviour.", "quantifier": "all board sizes and contents, all heaps, all capacities the allocator may choose, 32 and 64 bit pointers", "why_tests_cant": "Undefined behaviour is invisible to a test that happens to run: common allocators ignore the size passed to dealloc.", "anchors": ["c/src/lib.rs:vec_board_to_struct_board", "c/src/lib.rs:struct_board_to_vec_board", "c/src/lib.rs:free_board", "c/src/lib.rs:free_board_poss"]}
{"id": "C82", "title": "A game with replaced boards replays on its last board", "statement": "If the board is replaced during a game by boards that explain what is shown (and keep the mines with no covered safe cell before them), the accepted events played on a new game with the last board - which is all a saved video keeps - are all accepted again, answered with the same levels, and show after each of them the same board, game state, mouse state, click counters and flag count, and the same effective clicks and solved 3BV; the same holds for any other board that explains what is shown at the end.", "quantifier": "all boards, all sequences of events including refused ones, all moments and numbers of replacements, all boards that explain what is shown at the end", "why_tests_cant": "Whether a replay on another board shows the same cells at every step depends on the whole history of events and replacements.", "anchors": ["base/src/videos/base_video.rs:set_board", "base/src/videos/minesweeper_board.rs:step", "base/src/utils.rs:refresh_board"]}
{"id": "C83", "title": "The video players of Python and JavaScript", "statement": "A Python or JavaScript program may seek a parsed video by time, assign current_event_id and ask for boards and probabilities in any order, catching exceptions. Assigning an event of the video always shows that event's board and counters; a seek after it ends at the same event and time as after any other history; an event that is not there may be assigned, after which every use raises until a valid one is assigned, and nothing is lost. The time and the rates shown are those of the event assigned.", "quantifier": "all videos and event lists, all sequences of seeks, assignments and questions including failing ones, all event numbers, all times", "why_tests_cant": "The state left behind depends on the whole sequence of calls, failing ones included.", "anchors": ["python_package/src/evf_video.rs:set_current_event_id", "python_package/src/base_video.rs:set_current_event_id", "wasm/src/board.rs:set_current_event_id", "base/src/videos/base_video.rs:set_current_event_id", "base/src/videos/base_video.rs:set_current_time"]}
{"id": "C84", "title": "EVF files and the published standard", "statement": "Every file that follows one of the versions of the published EVF standard (0.0 to 0.3) and has at least one row is read as saying what it says: flags, sizes, counts, time, texts, mines, events, checksum. Nothing but such a layout is accepted. Every file that the library writes follows the version whose number it carries and says what the video holds.", "quantifier": "all byte strings; all contents a file of any version can have; all videos within the field widths", "why_tests_cant": "The space of files is unbounded, and compatibility with a published format has to hold for files made by other programs.", "anchors": ["evf标准.md", "base/src/videos/evf_video.rs:parse_video", "base/src/videos/base_video.rs:generate_evf_v0_raw_data"]}
{"id": "C85", "title": "The recording in an EVF file means what the standard says", "statement": "In the file of every finished live game the first event is the first effective press of the left or right button, at time 0; times never decrease; the last event is the release that ended the game and its time is at least the game time; operations off the board are recorded at (rows x cell size, columns x cell size); the cell size is that of the recording; official implies completed; the no-flag bit says whether no right click was made.", "quantifier": "all histories of a video object whose last game is over, all boards within the field widths, all clocks", "why_tests_cant": "It relates the written bytes to every history of calls that can precede them.", "anchors": ["evf标准.md", "base/src/videos/base_video.rs:step", "base/src/videos/base_video.rs:generate_evf_v0_raw_data", "base/src/videos/base_video.rs:set_pix_size", "base/src/videos/base_video.rs:set_is_offical", "base/src/videos/minesweeper_board.rs:step"]}
{"id": "C86", "title": "Boards and operations given to JavaScript as JSON texts mean what they spell", "statement": "A JSON text that spells a board, with any white space, is the board cal_bbbv, cal_op, cal_possibility_onboard, the game class and its setters of the wasm package work on; every other text panics; different matrices of integers are different boards; a text of operations is the sequence of operations played and an operation is never played on another cell; what the package writes is read back as the same board, so that setting game_board to what was read changes nothing; laymine_number, laymine_op_number and laymine_solvable return texts that spell boards with the wanted properties; the numbers for the state of the game and of the mouse tell the states apart.", "quantifier": "all JSON texts, all boards, all sequences of operations, all shuffles, all reachable games", "why_tests_cant": "It ranges over all texts that spell a value and all boards and games.", "anchors": ["wasm/src/transfor.rs:json2vec", "wasm/src/transfor.rs:vec2json", "wasm/src/transfor.rs:trans_opt", "wasm/src/lib.rs", "wasm/src/board.rs:MinesweeperBoard", "python_package/src/board.rs:get_mouse_state"]}
{"id": "C87", "title": "Turned and mirrored boards get turned and mirrored answers", "statement": "If a board is mirrored, put upside down, turned by any number of quarter turns or has its rows and columns exchanged, then openings, islands, 3BV and the counts of the numbers do not change; cal_board_numbers writes the same numbers in the corresponding cells; cal_possibility_onboard gives corresponding cells the same probability and the same three numbers of mines, or the same error; a board no layout explains (no number having more marked mines around it than it shows) is refused either way; is_solvable gives the same answer for the corresponding safe start, also on boards too large for the enumeration.", "quantifier": "all boards of any size, all one-to-one maps of cells that keep neighbours (all eight symmetries and their compositions), all numbers of mines and densities", "why_tests_cant": "It ranges over all boards and all symmetries, and the code visits cells in a fixed order, so no symmetry is visible in it.", "anchors": ["base/src/utils.rs:cal_op", "base/src/utils.rs:cal_isl", "base/src/utils.rs:cal_bbbv", "base/src/utils.rs:cal_cell_nums", "base/src/utils.rs:cal_board_numbers", "base/src/algorithms.rs:cal_possibility_onboard", "base/src/algorithms.rs:is_solvable"]}
{"id": "C88", "title": "A game played in a mirror is the mirrored game", "statement": "If the same events are played at the corresponding places of a turned or mirrored board, every call returns the same (or panics in both games), the game boards are turned in the same way, and the state of the game, the state of the mouse, the counters of left, right and double clicks, of effective clicks and flags, and the solved 3BV are equal at every time.", "quantifier": "all boards with correct numbers, all eight symmetries and every map of cells that keeps neighbours, all sequences of events at cells, outside the board or anywhere else", "why_tests_cant": "It ranges over all boards, all symmetries and all sequences of events; the code scans cells in a fixed order and keeps a moving pointer for the test of winning.", "anchors": ["base/src/videos/minesweeper_board.rs:MinesweeperBoard::new", "base/src/videos/minesweeper_board.rs:step", "base/src/videos/minesweeper_board.rs:step_flow", "base/src/videos/minesweeper_board.rs:reset", "base/src/videos/minesweeper_board.rs:is_win", "base/src/videos/minesweeper_board.rs:op_num_around_cell", "base/src/utils.rs:refresh_board"]}
{"id": "C89", "title": "Probabilities as the game goes on: they add up, what is certain stays certain, and a click does not change the average", "statement": "The probabilities cal_possibility_onboard gives (in exact arithmetic) lie between 0 and 1 and add up to the number of mines it assumes. If a later board shows all that an earlier one shows and more, a cell with probability 0 (or 1) before has probability 0 (or 1) after, and the range of possible mine numbers does not grow. For every covered cell, the probability of a mine anywhere is the average, over all that the cell can turn out to be, of the probability given afterwards.", "quantifier": "all player's boards explained by some layout of mines, all later boards, all numbers of mines and densities, all cells clicked", "why_tests_cant": "It ranges over all pairs of boards and sums over all layouts of mines.", "anchors": ["base/src/algorithms.rs:cal_possibility", "base/src/algorithms.rs:cal_possibility_onboard", "base/src/utils.rs:ENUM_LIMIT"]}
{"id": "C90", "title": "Analysing a video again changes nothing one can see", "statement": "On a video that has been parsed and analysed, calling analyse again any number of times succeeds and leaves the final state, the start time, and for every event its counters, level, path, mouse state and the boards before and after it as they were; playing the video (jumps to times and events, boards and probabilities shown) and analysing it for features give the same as before.", "quantifier": "all boards, all event lists that can be analysed, any number of calls, all series of player calls, all series of features", "why_tests_cant": "It ranges over all videos, all numbers of calls and all series of calls afterwards; analyse works in place on records and on a stream of boards that it only appends to.", "anchors": ["base/src/videos/base_video.rs:analyse", "base/src/videos/base_video.rs:set_current_time", "base/src/videos/base_video.rs:set_current_event_id", "base/src/videos/base_video.rs:get_game_board", "base/src/videos/base_video.rs:get_game_board_poss", "base/src/videos/base_video.rs:analyse_for_features", "base/src/videos/analyse_methods.rs"]}
{"id": "C91", "title": "Asking for several features", "statement": "On an analysed video, what a feature says about an event (or that it panics) depends on the video only, not on the features asked for before; so features asked for in another order, in one call or several, give every event the same comments, only in that other order, and the call panics in one order iff it does in the other; asking for a feature again gives the same comments as asking once.", "quantifier": "all boards and event lists (positions within the reach of the enumeration), all series of features", "why_tests_cant": "It ranges over all videos and all series of names; the features share the lazily filled boards and the comment strings.", "anchors": ["base/src/videos/base_video.rs:analyse_for_features", "base/src/videos/analyse_methods.rs", "base/src/board.rs:GameBoard"]}
{"id": "C92", "title": "is_solvable imitates one particular player", "statement": "On every correctly numbered board of any size of at least 3x3 and every safe start, is_solvable returns true exactly if the board has no dead structure (for a start showing 0 that need not be asked) and the following player gets to know all safe cells: she knows at first the start; from single numbers (all unknown cells around it are mines, or all are safe) and from pairs of numbers (the unknown cells seen by the first alone are all mines and those seen by the second alone are all safe) she concludes for as long as anything follows; then, if no group of linked unknown cells next to numbers has more than 55 cells, she adds the cells next to numbers that are safe in all layouts and those that are mines in all layouts and have no double (another unknown cell next to the same numbers), and begins again; otherwise she gives up. So the answer depends neither on the order in which equations are written, chunked or compared nor on which of the conclusions is drawn first.", "quantifier": "all boards with correct numbers of at least 3x3 of any size, all safe starts", "why_tests_cant": "It ranges over all boards and all orders of the rules; tests compare single boards with a recorded answer.", "anchors": ["base/src/algorithms.rs:is_solvable", "base/src/algorithms.rs:solve_direct", "base/src/algorithms.rs:solve_minus", "base/src/algorithms.rs:solve_enumerate", "base/src/utils.rs:chunk_matrixes"]}
{"id": "C93", "title": "What the solvers find does not depend on how the board is held or the equations are ordered", "statement": "On a board that some layout explains, mirrored, turned or with rows and columns exchanged, mark_board leaves the correspondingly turned marks, is_able_to_solve gives the same answer for the corresponding cell, and get_all_not_and_is_mine_on_board finds the corresponding safe cells and mines, although blocks, rows and columns come in another order; two equation systems with the same equations and a common solution, ordered and divided into blocks in whatever way, make solve_direct and solve_minus report the same cells.", "quantifier": "all boards of any size that some layout explains, all eight symmetries and their compositions, all cells; all satisfiable equation systems with 0/1 coefficients", "why_tests_cant": "It ranges over all boards and all orders; the solvers change the rows they are looping over, so what they find could depend on the order.", "anchors": ["base/src/algorithms.rs:mark_board", "base/src/algorithms.rs:is_able_to_solve", "base/src/algorithms.rs:get_all_not_and_is_mine_on_board", "base/src/algorithms.rs:solve_direct", "base/src/algorithms.rs:solve_minus"]}
{"id": "C94", "title": "How large the cells were drawn and when the recording began does not matter", "statement": "Two programs that make the same calls of step, set_board, reset and set_pix_size, one with cells k times as large (and the mouse k times as far) and a clock that is ahead, get the same answers, and their videos have the same boards, counters, paths, event times and result. A file whose positions are k times as large and whose events are t ms later is analysed to the same boards, counters and paths (or both panic); if a cell is opened in it, seeking moments from the beginning on, jumping to events and asking for probabilities gives the same answers call for call; and analyse_for_features adds the same comments to its events, except for vision_transfer, whose 112 pixels are no multiple of the size of a cell: its comments depend on k, but not on the time.", "quantifier": "all boards, all sequences of calls, all event lists of any length, all factors k, time shifts and clocks; positions and board sizes that fit 16 bits as stored", "why_tests_cant": "It relates two runs for all inputs and all factors; rounding to cells, tests against the edge of the board and 16 bit storage could differ at any position.", "anchors": ["base/src/videos/base_video.rs:step", "base/src/videos/base_video.rs:analyse", "base/src/videos/base_video.rs:set_current_time", "base/src/videos/analyse_methods.rs:analyse_mouse_trace", "base/src/videos/analyse_methods.rs:analyse_vision_transfer"]}
{"id": "C95", "title": "Movements of the mouse do not change the game", "statement": "A program that reports other movements of the mouse, or none, between the same presses and releases gets the same game: step_flow ends in the same state; a live BaseVideo answers every press and release alike and has the same boards, game state, clock, result and button events (the path apart), a movement never being refused; and two files with the same button events are analysed to the same game, boards, beginning and button events, or neither is.", "quantifier": "all boards with correct numbers, all sessions of two programs that differ in the movements they report, all clocks; all files", "why_tests_cant": "It relates two runs for all histories; a movement is recorded and looked at when the path is computed, so that it could refuse, delay or start something at any point.", "anchors": ["base/src/videos/minesweeper_board.rs:step", "base/src/videos/minesweeper_board.rs:step_flow", "base/src/videos/base_video.rs:step", "base/src/videos/base_video.rs:analyse"]}
{"id": "C96", "title": "A careful player in the game machine", "statement": "Play a correctly numbered board in the game machine with a first left click on a safe cell. A player who from then on opens only cells that hold no mine in any layout agreeing with the numbers shown, flags only cells that hold a mine in every such layout, removes flags, and chords wherever they like, has every move accepted and never loses. If the board can be solved without guessing - so in particular if is_solvable accepts it, or laymine_solvable or its eight threads return it with the flag set - such a player never gets stuck, whatever they did and in whatever order: until the game is won some cell is surely safe, and opening such cells wins. Conversely some careful game is won only if the board can be solved without guessing; on boards of at most 55 cells and a start showing 0 that is_solvable rejects, none is.", "quantifier": "all correctly numbered boards and safe starts, all careful games of any length, all shuffles and schedules of the generators", "why_tests_cant": "It is about every order of moves and about all layouts of mines agreeing with what is shown.", "anchors": ["base/src/videos/minesweeper_board.rs:step", "base/src/videos/minesweeper_board.rs:left_click", "base/src/videos/minesweeper_board.rs:chording_click", "base/src/algorithms.rs:is_solvable", "base/src/algorithms.rs:laymine_solvable", "base/src/algorithms.rs:laymine_solvable_thread"]}
{"id": "C97", "title": "A video cut short", "statement": "If a file is analysed without a panic, so is the file with only its first k events: its events, with everything the analysis writes to them, are the first k events of the whole analysis, its boards are the first boards, its game is the one those events play, and if the game has begun by then it began at the same time; the player shows on each of these events the same board, at the same time. high_risk_guess, jump_judge and needless_guess say the same about each of these events in both videos; mouse_trace, vision_transfer and super_fl_local say the same, or, in the cut video, nothing; super_fl_local does not panic on the cut video if it does not on the whole one; and the chances that survive_poss multiplies in the cut video are the first ones of those it multiplies in the whole one.", "quantifier": "all boards with correct numbers, all event lists that can be analysed, all k", "why_tests_cant": "It relates two analyses for every file and every place to cut it.", "anchors": ["base/src/videos/base_video.rs:analyse", "base/src/videos/base_video.rs:set_current_event_id", "base/src/videos/analyse_methods.rs:analyse_high_risk_guess", "base/src/videos/analyse_methods.rs:analyse_mouse_trace"]}
{"id": "C98", "title": "A program that plays what the library tells it", "statement": "Play a correctly numbered board with at least one mine in the game machine with a first left click on a safe cell. At every later moment cal_possibility_onboard, given the board shown and the number of mines, answers with a table for exactly this number of mines, never with an error or a panic, and mark_board answers Ok. A covered cell with probability 0 holds no mine in any layout of this many mines agreeing with what is shown, one with probability 1 holds a mine in all of them (and conversely, within the limit of the enumeration); cells marked 12 and 11 likewise, even without counting the mines. A program that opens and flags cells as told by these functions, and chords wherever it likes, has every move accepted and never loses. What it was told stays right, so all the answers of one moment can be played one after the other. On boards that can be solved without guessing such a program never gets stuck for lack of a safe cell.", "quantifier": "all correctly numbered boards of any size and safe starts, all such programs, games of any length", "why_tests_cant": "It ranges over every board, every choice among the answers and every history of a game.", "anchors": ["base/src/algorithms.rs:cal_possibility_onboard", "base/src/algorithms.rs:mark_board", "base/src/videos/minesweeper_board.rs:step", "base/src/videos/minesweeper_board.rs:left_click", "base/src/videos/minesweeper_board.rs:chording_click"]}
{"id": "C99", "title": "A game gives away only what has been opened", "statement": "What a player sees of a game - the answer to every event, the board shown, the state of the game and of the mouse, the counts of clicks and of flags - depends on the board only through the numbers shown and the number of mines. Play any events, accepted or refused, on a correctly numbered board up to any moment at which the game is not lost: on another correctly numbered board of the same size with as many mines the same events look the same all along exactly if that board has all the numbers shown at that moment. So every set of as many cells that agrees with the numbers shown is still a possible set of mines (some board with exactly these mines looks the same), and no other set is. In a running game with no button down, opening a covered cell is free of risk on all boards that look the same exactly if the cell holds no mine in any such set; a program that decides from what it sees plays the same on boards that look the same, and one that never loses (on boards with as many mines and none on a given first cell) opens by left clicks only covered cells that hold a mine in no such set. The counting player of C98 thus opens everything that can be opened without risk.", "quantifier": "all pairs of correctly numbered boards of any size, all sequences of events, all sets of cells, all programs that play", "why_tests_cant": "It compares the histories of games on all the boards that cannot be told apart, and ranges over all programs.", "anchors": ["base/src/videos/minesweeper_board.rs:step", "base/src/videos/minesweeper_board.rs:left_click", "base/src/videos/minesweeper_board.rs:chording_click", "base/src/utils.rs:refresh_board"]}
{"id": "C100", "title": "The probability told is the chance of losing", "statement": "Play any events, accepted or refused, on a correctly numbered board with at least one mine, up to a moment before the first click or in the running game, with no button down, all flags on cells that hold a mine with all sets of mines with which the game would look the same (in particular with no flags), and the numbers within the limit of the enumeration. Of all sets of as many mines with which everything seen of the game would have been the same from its beginning, the fraction with which a left click on a covered cell now loses is the probability cal_possibility_onboard gives for the cell (in exact arithmetic) when given the board shown and the number of mines; the fraction with which the click opens an area is what cal_is_op_possibility_cells gives (or NaN, where it is 0). The flags of the counting players of C98 are always of this kind; after a wrong flag the table can call a losing click free.", "quantifier": "all correctly numbered boards of any size, all sequences of events, all covered cells", "why_tests_cant": "It counts the boards that would have given the same history, for every history.", "anchors": ["base/src/algorithms.rs:cal_possibility_onboard", "base/src/algorithms.rs:cal_is_op_possibility_cells", "base/src/videos/minesweeper_board.rs:step", "base/src/videos/minesweeper_board.rs:left_click"]}
{"id": "C101", "title": "One program wins every board that can be won by counting", "statement": "There is a program that plays through the game machine only, seeing nothing but what a player sees, and that does not know the board: it clicks the start and then asks an advice (a function of the board shown and the number of mines) which cell to click. If the advice names only covered cells without a mine in all layouts of as many mines that agree with the board shown, the program loses on no correctly numbered board of that size and number of mines with a safe start, and no event makes the machine panic. If the advice names such a cell whenever there is one, the program has won, after at most two events for each safe cell, every board that can be solved without guessing by a player who knows the number of mines, in particular every board for which is_solvable answers true; and these are exactly the boards on which some game of some player who counts is won. Such advice exists for every size; the covered cells to which cal_possibility_onboard gives the probability 0 are honest advice on boards of any size, and helpful on boards of at most 55 cells (and wherever all numbers are in the reach of the enumeration). No program does better without risk: take any program (it may press, release, chord and flag as it likes) that loses on no board that could be dealt instead and makes the machine panic on none; every board it wins can be solved without guessing by a player who knows the number of mines. So on boards of at most 55 cells the program that follows cal_possibility_onboard wins every board that any program without risk wins.", "quantifier": "all advice, all programs, all board sizes, numbers of mines and starts, all boards, all lengths of the run", "why_tests_cant": "It is a statement about a whole run of a program on every board, and about all games of all players.", "anchors": ["base/src/algorithms.rs:cal_possibility_onboard", "base/src/algorithms.rs:is_solvable", "base/src/videos/minesweeper_board.rs:step", "base/src/videos/minesweeper_board.rs:left_click"]}
{"id": "C102", "title": "What the analyses call a risk is the chance of losing", "statement": "Take an analysed video of any game, with whatever flags, right or wrong. For each event that opened cells by releasing the left button, the risk that high_risk_guess, needless_guess and survive_poss reckon with is the number of sets of mines (as many as on the board) with which the whole game up to then would have looked the same to the player and this event would have lost it, divided by the number of all sets with which the game would have looked the same. So needless_guess comments, from the third event on, exactly the openings that would have lost the game with some such set, and high_risk_guess those that would have lost with at least 51 % of them, naming the percentage that would have survived; survive_poss names, for the second and every later release of the left button that opened something, the fraction that would have survived (unless that is 1), and their product; the risk is never 1. Chords are given no risk: a chord on a guessed flag that loses with half of these sets is not commented, and survive_poss does not count it.", "quantifier": "all boards with correct numbers, all event lists (positions within the reach of the enumeration), all earlier analyses", "why_tests_cant": "It compares the game played with its counterparts on all boards on which it would have looked the same.", "anchors": ["base/src/videos/analyse_methods.rs:analyse_high_risk_guess", "base/src/videos/analyse_methods.rs:analyse_needless_guess", "base/src/videos/analyse_methods.rs:analyse_survive_poss", "base/src/videos/base_video.rs:analyse", "base/src/videos/minesweeper_board.rs:step"]}
{"id": "C103", "title": "The recording of a program that never loses is not blamed for gambling", "statement": "Take any program that plays through the game machine, however it decides, which loses on no correctly numbered board of a size and number of mines (with none on the cell it starts with), and an analysed video of a game it played. Every event that opens cells by releasing the left button after the starting cell has been opened has risk 0: with no set of mines with which the game would have looked the same would it have lost. So needless_guess says nothing about the events after the start, high_risk_guess nothing about the left clicks after it, and, if the start is the first opening of the video by the left button, survive_poss reports no chances and the product 1. The program that follows cal_possibility_onboard is such a program.", "quantifier": "all programs that never lose, all boards with correct numbers, all recorded games (positions within the reach of the enumeration), all earlier analyses", "why_tests_cant": "It relates three parts of the library on all histories: the play of an arbitrary program on all boards it could meet, the recorder, and the probabilities of the analyses.", "anchors": ["base/src/videos/analyse_methods.rs:analyse_high_risk_guess", "base/src/videos/analyse_methods.rs:analyse_needless_guess", "base/src/videos/analyse_methods.rs:analyse_survive_poss", "base/src/videos/base_video.rs:analyse", "base/src/videos/minesweeper_board.rs:step", "base/src/algorithms.rs:cal_possibility_onboard"]}
{"id": "C104", "title": "A video seen in a mirror shows the same risks", "statement": "Take two analysed videos, the second of which shows the first turned or in a mirror, drawn in cells of whatever size (the same events, at the corresponding cells of the turned board, at the corresponding outside, or nowhere in both). Events, refused ones included, play games that are images of each other; the numbers of sets of mines with which a game would look the same to the player, and of those with which the next event would lose it, are equal; corresponding events are recorded with the same usefulness, and the openings have the same risk. So needless_guess says the same about corresponding events, high_risk_guess about corresponding left clicks, and survive_poss reports the same chances and product, whatever analyses came before.", "quantifier": "all boards with correct numbers, all eight symmetries and every map of cells that keeps neighbours, all event lists (positions within the reach of the enumeration), all sizes of cells, all earlier analyses", "why_tests_cant": "The answers come from sums over groups of linked cells found in the order of rows; that the order does not matter has to hold for all boards and all histories.", "anchors": ["base/src/videos/analyse_methods.rs:analyse_high_risk_guess", "base/src/videos/analyse_methods.rs:analyse_needless_guess", "base/src/videos/analyse_methods.rs:analyse_survive_poss", "base/src/videos/base_video.rs:analyse", "base/src/videos/minesweeper_board.rs:step"]}
