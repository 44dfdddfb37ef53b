# Formal model of ms_toollib (Lean 4)

## Trusted base

* Lean 4.33.0's kernel, and the standard axioms `propext`, `Classical.choice`, `Quot.sound` (no others; no
  compiled evaluation, no own axioms).  `#print axioms` on every property theorem gives a subset of these three; all
  three occur in most theorems, because `Finset` cardinalities and `ℚ` use them.
* Lean core and the Mathlib modules imported one by one (finite sets, relations, rationals, tactics).
* Our reading of the Rust source: every model definition cites the file and lines it models and says where it simplifies.
  Nothing of the Rust code is executed here; the correspondence model/code is by reading.

## Modelling conventions

* `Vec<Vec<i32>>` = `List (List Int)`; `i32`/`usize` are unbounded integers/naturals, except where the property is about
  overflow or underflow (SafeBoard masks; `right -= 1`, `flag -= 1`, `pre_flag_num -= 1` in the game machine; `u16`
  positions, `u8`/`u16`/`u24` fields and time subtractions of videos; array indices everywhere), where it is explicit.
* The generic functions (`T: Index + BoardSize`) are modelled on `View` (two sizes and an index function), so one model
  covers both `Vec<Vec<i32>>` and `SafeBoard`.
* A panic is an explicit value (`none`, or `Outcome.panic` where the function also has an `Err`).
* `for` loops are folds; `while`/recursion without a bound carries fuel, and running out of fuel is an explicit value that
  a theorem shows never to occur.
* Randomness (shuffles, masks) is an argument; thread schedules are relations; properties quantify over them.
* `f64` probabilities and path lengths are exact rationals, NaN and infinities an explicit `none`; rounding is not
  modelled (except for times, `Model/Time`, for board recognition, `Model/Obr`, and for probabilities a second time in `Model/PossFloat`).  Clocks are natural numbers of microseconds, event times natural milliseconds, player times rationals.
* `&mut self` methods are functions from state to state; histories of calls are inductive predicates (`Reach`, `Session`,
  `Playing`, `Asked`), and the theorems quantify over everything they reach.

## What is modelled, what is not

| code (base/src) | model |
|---|---|
| utils.rs: cal_op, infect_board, cal_isl, cal_cell_nums, cal3BVonIsland, cal_bbbv | Model/Metrics |
| utils.rs: refresh_matrix(s), chunk_matrix(es); algorithms.rs: solve_minus, solve_direct | Model/Solve |
| utils.rs: get_random_int, shuffle_, laymine, laymine_op, cal_board_numbers | Model/Laymine |
| utils.rs: refresh_board; videos/minesweeper_board.rs (all of it) | Model/Game |
| utils.rs: BigNumber, C, C_query | Model/BigNumber |
| utils.rs: combine, cal_cell_and_equation_map, cal_table_minenum_recursion(_step); algorithms.rs: solve_enumerate | Model/Enum |
| utils.rs: unsolvable_structure; algorithms.rs: isVictory, is_solvable | Model/Solvable |
| utils.rs: cal_bbbv_exp, legalize_board, is_good_chording, surround_cell_num | Model/Misc |
| utils.rs: enumerateSub, enuOneStep | Model/EnuStep |
| utils.rs: enum_comb, cal_table_minenum_enum | Model/EnumComb (u8 sums modulo 256, counts unbounded) |
| miscellaneous.rs: s_to_ms, time_ms_between; the f64 arithmetic of times in base_video.rs, mvf_video.rs, avf_video.rs | Model/Time (IEEE rounding to nearest even with 53 bits; exponents unbounded) |
| base_video.rs: the object as a whole: marks, texts, time stamps, reset, set_board, generation, checksum | Model/Whole (on top of Model/Video and Model/Evf; system clock stamps are parameters) |
| python_package/src/lib.rs: cal_possibility, cal_possibility_onboard, solve_enumerate, get_all_not_and_is_mine_on_board, mark_board, OBR_board; python_package/src/board.rs and wasm/src/board.rs: step, step_flow, get_game_board_2; wasm/src/lib.rs: cal_possibility_onboard | Model/Bindings, Model/BindingsSolve (the conversion of arguments by PyO3 is not modelled; the functions take the board itself) |
| wasm/src/transfor.rs (all); wasm/src/lib.rs (all functions); wasm/src/board.rs: MinesweeperBoard new, step_flow, set_board, set_game_board, get_game_board, codes of states | Model/Json (`serde_json::from_str` is a parameter; what `serde_json::to_string` writes for integers, lists and booleans is modelled) |
| c/src/lib.rs: the conversions of boards, free_board, free_board_poss | Model/CApi (a heap of blocks with layouts) |
| OBR.rs (all of it); algorithms.rs: OBR_board | Model/Obr (`f32` as a rational rounded by `fl32` after every operation; exponent range, infinities and NaN left out except the one division by zero; the neural network behind `OBR_cell` is a parameter) |
| the counting of cal_table_minenum_recursion, solve_enumerate, cal_possibility(_onboard) with wrapping machine words | Model/Word (counts modulo a parameter; positions, indices and mine numbers not reduced) |
| base_video.rs: save_to_evf_file | Model/Save (a disk maps names to contents; every step of every caller interleaved; a write goes byte by byte) |
| algorithms.rs: sample_3BVs_exp, laymine_study_exp | Model/Sample (the threads' shuffles are parameters; the join of the threads adds their histograms) |
| utils.rs: refresh_matrixses, find_a_border_cell; algorithms.rs: is_guess_while_needless | Model/Guess |
| algorithms.rs: cal_possibility, cal_possibility_onboard, cal_is_op_possibility_cells | Model/Poss (exact rationals), Model/PossFloat (every f64 operation rounded) |
| algorithms.rs: laymine_solvable, laymine_solvable_thread | Model/Gen |
| algorithms.rs: laymine_solvable_adjust, adjust_step, adjust_the_area_on_board | Model/Adjust |
| algorithms.rs: mark_board, get_all_not_and_is_mine_on_board, is_able_to_solve | Model/Mark |
| safe_board.rs | Model/SafeBoard |
| board.rs: Board | Model/BoardCache |
| board.rs: GameBoard | Model/GameBoard |
| videos/evf_video.rs, base_video.rs: generate_evf_v0_raw_data, set_checksum, byte readers | Model/Evf |
| base_video.rs: live recording (new, reset, set_board, set_pix_size, step, get_time), analyse (event loop) | Model/Video |
| base_video.rs: win_then_flag_all_mine, loss_then_open_all_mine | Model/GameEnd |
| videos/avf_video.rs, rmv_video.rs, mvf_video.rs: parse_video, and base_video.rs: get_u8 … get_u24, get_char | Model/Parsers (parameters: `str::parse::<f64>`, the forty digits MVF computes with `sqrt`/`sin`/`cos`; arithmetic overflow panics, as with overflow checks on) |
| base_video.rs: set_current_time, set_current_event_id, get_game_board(_poss), start/end time | Model/Player |
| videos/analyse_methods.rs (all of it), base_video.rs: analyse_for_features | Model/Features (comments as data, not text; distances are a parameter; numbers exact, the code rounds them when printing) |
| base_video.rs: the getters of statistics (get_left … get_x_y), gather_params_after_game, cal_static_params, what analyse stores, is_valid | Model/Stats (`powf(1.7)`, `powf(0.5)` are parameters of which only signs are assumed) |

Not modelled: `OBR_cell`/`agent_step` (neural network), reading files from disk, the rest of the
language bindings (the c++ package, which does not match the current API; PyO3 conversions; JSON texts with objects, fractions or escapes; the getters, which
only pass values on), printing, real time.  See the end of the table below for what else is open.

## Layout

`Verif/Spec*.lean` specification vocabulary (no model helpers except `View`); `Verif/Model/*.lean` the model;
`Verif/Lemmas/*.lean` helper lemmas; `Verif/Properties/*.lean` the property theorems, each with examples showing that its
hypotheses can be met.

Where a property is false of the code, a theorem `..._refuted` (or one named after the failure) proves the negation on a
concrete witness, and `..._partial` proves what does hold.  Such failures are listed as *Finding*.

## Plan per property

| id | model | proof |
|----|-------|-------|
| C01 | `laymine` with the shuffle result as argument (any permutation) | fold invariant; numbers = neighbour count; every layout is reached |
| C02 | `laymine_op`, explicit panics | same, with the index shift; *Finding*: one-row/one-column boards panic |
| C03 | `cal_board_numbers` | fold invariant |
| C04 | `cal_op`/`infect_board` with fuel | DFS invariant, system of representatives, quotient cardinality |
| C05 | `cal_isl` | reduction to C04 |
| C06 | `cal_cell_nums`, panic explicit | fold invariant |
| C07 | `cal3BVonIsland`, `cal_bbbv` | counting; optimality by injection of isolated cells and openings into clicks |
| C08 | `struct Board` getters | *Finding*: values are not cached, only the flag: refutation + exact behaviour over all call histories |
| C09 | `cal_bbbv_exp` | *Finding*: labels never written: refutation on a 16x30 witness; exact condition for agreement |
| C10 | `refresh_board` with fuel | least-closure specification, termination |
| C11 | `SafeBoard` with 32-bit bounds | all masks; *Finding*: value 9 reads back as 10; the iterator yields raw codes |
| C12-C16, C19, C20 | `MinesweeperBoard` as `step : State → Event → Pos → Option (State × Result)` | invariant `GInv` over all reachable states, effect relation `Eff` |
| C13 | + `set_board` | *Finding*: a board set during play leaves the scan pointer stale, games are not won |
| C17 | explicit underflows | *Finding*: a press beside the board makes `right` underflow |
| C18 | `reset` | *Finding*: `pre_flag_num`, `middle_hold` survive: refutation + the rest |
| C21, C22 | counters ce, bbbv_solved | *Findings*: ce may exceed the clicks after going back to Ready; bbbv_solved overcounts if a zero is flagged |
| C23-C25, C46 | EVF encoder/decoder on byte lists | round trip, totality, truncation, checksum histories; *Findings*: height 0 panics; a second set_checksum does not update the stored checksum |
| C26-C31 | matrix construction, three solvers, `is_solvable` | soundness and completeness w.r.t. all 0/1 assignments; *Findings*: mines with a twin column missed (C29), panics on contradictory systems (C28) |
| C32, C33, C45 | enumeration tables, `cal_possibility` over exact rationals, `C`, `C_query` | exact counting by product decomposition |
| C34 | `laymine_solvable` and its threads as a transition system | invariant over schedules; *Finding*: a found board can lose the race |
| C35 | `unsolvable_structure` | swap construction per pattern |
| C36 | `legalize_board` | fold invariant |
| C37 | `is_good_chording`, explicit panic | *Finding*: panics in the last column; exact elsewhere |
| C38 | `set_current_time`, `set_current_event_id` on exact times | loop invariants with sorted times; *Finding*: seeking to the time of the current event goes one back |
| C39 | `get_game_board_poss` | C52 + C53; *Findings*: panics at event 0, transposed before the first opening, a first event that opens is ignored later |
| C40 | end-of-game boards | fold invariant |
| C41 | `mark_board` | chain of C27-C31 on equal systems; *Finding*: may panic on contradictory boards |
| C42 | `shuffle_`, `get_random_int` | permutation induction; every permutation reachable |
| C43 | AVF/RMV/MVF readers on byte lists | exact set of panicking files (9 causes), from the layouts; the claim itself is refuted; *Findings*: mines at row/column 0, no rows, no events, level 253-255, announced sizes too small |
| C44 | `is_able_to_solve`, `is_guess_while_needless` | as C41; *Findings*: answers 4 and 2 wrong in cases, certain mines with twins missed |
| C47 | `laymine_solvable_adjust` | invariant over rounds; *Findings*: too many mines on success; the board may need a guess |
| C48 | live `BaseVideo` | invariant `LInv` over sessions: time line of events and boards, path |
| C49 | `get_rtime_ms` | same; *Finding*: a game ended by its first click has the duration of the press |
| C50 | `analyse` of what was recorded, directly and through a file | simulation relation between live and replayed machine; *Findings*: path lengths differ, ce/double carried over, set_pix_size after the end breaks the replay, analyse panics on refused events |
| C51 | panics of recording | *Findings*: stale `game_start_ms` after reset underflows; `get_time` underflows by rounding |
| C52 | `analyse` of arbitrary events; the player | invariant of the event loop; *Finding*: taking back the only flag before the game leaves the flag in the replay |
| C53 | `GameBoard` cache | equivalence of the marked board with the board; *Findings*: stale after a second set_game_board, 0 mines taken for a density, NaN with too many mines |
| C54 | the same | stability of readers under more bytes, errors each reader can give; *Findings*: a mine given twice is accepted; any file of two bytes that is no MVF file is accepted as an empty video |
| C55 | the same, against a separate description of the layouts (SpecFormat) | both directions part by part; the order of the bits of MVF events is the unique sorting permutation; *Findings*: the second MVF event is compared with the point (0, 0); AVF code 11 gives an event no game accepts |
| C56 | analyse_methods.rs: high_risk_guess, jump_judge, needless_guess, survive_poss | position met by each event (invariant of `analyse`), C53 for the answers, induction over the events; *Findings*: see MANIFEST |
| C57 | mouse_trace, vision_transfer | loop invariant: comments of all closed pairs of clicks |
| C58 | super_fl_local | loop invariant relating the state machine to an inductive description of runs (SpecFeatures); *Findings*: see MANIFEST |
| C59 | statistics | refinement: the record at the event shown holds the counters of the machine after that many events (C48, C50), in every reachable player and session; the getters are then computed. *Findings*: `qg` is NaN at negative times, `get_x_y` panics, live `ce_s`, `rqp`, `qg` are always 0, live rates panic or are infinite |
| C60 | is_valid | decision table against `Allowed`/`Sparse` (SpecStats), composed with the layouts of C55 and the round trip C23. *Findings*: RMV files with a short result text make it panic; the 3BV is the one the file states |
| C61 | sample_3BVs_exp | the board of each turn is a `laymine` board (C01); cal_bbbv_exp is bounded by counting safe cells; the histogram by induction over turns and threads. *Findings*: the entries are cal_bbbv_exp, which overcounts (C09); n is rounded down to a multiple of 16; a row beyond the board is taken for another cell |
| C62 | enuOneStep | loop invariant: the rows kept, plus the rows appended, are a permutation of the results of the rows walked; deletion from behind; then induction over the equations. *Findings*: the next step after an unsolvable one panics; rows with different open cells give wrong rows |
| C63 | enum_comb | invariant per row: the table lists, without repetition, exactly the situations of the rows so far; merging new columns is a product, the tests are the sums |
| C64 | cal_table_minenum_enum | the situations of enum_comb are a permutation of those of the recursion (C33), so the counts are the same; error codes. *Finding*: right-hand sides are reduced modulo 256 (never reached from a board) |
| C65 | s_to_ms, time_ms_between and times of files | `fl64` is proved to be a nearest double (independent definition of doubles), monotone and with relative error 2^-53; the results follow from error bounds and, at halves, from monotonicity and exactness of half integers. Links the whole-millisecond times of the recording model to the code. *Finding*: the double 0.0045 (below 4.5 ms) becomes 5 ms |
| C66 | save_to_evf_file | transition system of savers; invariants along any schedule; finite disks have a free name. *Finding*: two calls with the same name side by side can both return and the data of one be lost (the look for a free name and the creation are separate) |
| C67 | the life of a video object | inductive histories `Life`; invariant linking it to the sessions of C48-C51 (a pixel size set after the end is the only difference), the stored mine count and 3BV to the board; then C23 and C07. *Findings*: reset keeps the checksum, so the file of the next game carries that of the game before; after a reset without set_board the old board is written; new_before_game leaves level 0; the events l, r, m, crl, crr are recorded but written with an unknown code |
| C68 | probabilities through the packages | a marking only adds certain cells (Lemmas/GameBoard), so layouts of the marked and the given board correspond one to one; then C32 for the marked board. *Findings*: the marking can hide a contradiction (zeros instead of an error); a density below the marked mines panics; certain mines and certain safe cells are both missing from the list |
| C69 | a hand on a mouse (SpecHand: buttons, moves of a hand, agreement) | invariant: mouse state agrees with the buttons; case analysis of `step` on the states the invariant allows; with C17 for panics. *Findings*: a left press outside the board before the game, held, makes the right press an error; reset while the right button is held makes its release an error |
| C70 | get_game_board_2 | the shown board of a reachable state is explained by its mines (C12), then as C68 |
| C71 | ratings of columns (SpecObr: walks in a strip of five columns, BestWalk) | the dynamic programme keeps, for each of the five ends, the least cost of a walk (induction on the lines); misses = length - hits. *Finding*: the last two entries belong to the columns b-1 and b, the column b-2 is never rated |
| C72 | reading of any picture | every index of every loop within range (Lemmas/ObrTotal), the sort indices by bounds on `fl32`; `get_line` panics exactly when no two neighbouring lines are more than five apart; legality by C36. *Findings*: stripes two pixels high panic for every size; after narrowing, borders and ratings still come from the picture before narrowing (`x_bw3` is shadowed); the left border loop reads the row above instead of the column before; a picture of 106 x 106 pixels in which rows and columns are found has samples outside the picture (C72_samples_outside); samples lie at most four pixels outside, and inside when the last five scores are faint (C72_samples_reach) |
| C73 | evenly spaced lines (SpecObr: EvenLines) | smoothing adds no maximum; the two-sided count takes the first column of a two-wide line; the vote for the true size and place is the first greatest one. *Findings*: 8 pixels panics (with two-wide lines 9 too); from 206 pixels on the size is 0 and the number of cells 2^64 - 1 |
| C74 | ideal picture (SpecObr: RawBands, band, Side) | exact arithmetic of the gradient on 0/1 colours; edges run along whole rows and columns; the cut keeps everything if three lines lie in the middle third (always from eight cells on: `C74_eight`); ratings satisfy EvenLines; C73; samples exact. *Findings*: samples begin two pixels above and left of the cell; cells from 206 pixels on panic, and so do cells of 8 or 9 pixels |
| C75 | the engine with counts modulo `M` (Model/Word) against the unbounded one | induction over the recursion: sum of the table + amount * 2^(cells to go) never grows, so nothing reaches `M` when 8 * 2^cells < M; 55 cells for 64 bits, 28 for 32 bits. *Finding*: with 32 bits a board with seven fours shows a probability of 1.62 (C75_refuted) |
| C76 | number of permutations of the places per board (SpecFair: rearranged, MineBoard) | arrangements and boards correspond one to one (C01); the permutations giving one arrangement are a coset of a stabiliser; for laymine_solvable two boards are exchanged in every try by a bijection of the permutations; the indices of the js shuffle are recovered from the permutation. Not covered: laymine_solvable_thread (which thread is first depends on how long boards take to check) |
| C77 | the probability engine with every f64 operation rounded (Model/PossFloat.lean, parametric in the rounding; SpecPossFloat.lean) | every operation multiplies the error by at most 1+2^-52 (`Within K`), normalised numbers never underflow (`Rel`), the number of roundings of each result is counted; all terms are non-negative, so nothing cancels. Exponents (i32) unbounded; more than 789 covered cells or 10^12 distributions not covered. Opening chances subtract from 1, so their error is absolute: nine factors, each adding two tolerances and three roundings |
| C78 | Model/BindingsSolve.lean composes refresh_matrixs, the solvers and OBR_board as the Python package does; SpecPySolve.lean | the equations of a board are one per number (`refreshMatrixs_rows`), so merged columns are covered cells with the same numbers; then C29, C41, C44 and C72 |
| C79 | SpecToggle.lean says what each name stands for, given the buttons; no new model | case analysis of `step` per event, induction over the sequence for step_flow; the two exceptions (before the game; `r` outside the board) as theorems |
| C80 | SpecSwap.lean: runs in which the board is replaced by one that explains what is shown; no new model (assignment of the board) | a ghost game with a pointer that starts again at every replacement keeps the invariant of C12-C16, the real game differs from it in the pointer of is_win and possibly in claiming a win (simulation over step, Lemmas/Swap); false wins as a theorem, and the exact rule under which there are none |
| C81 | Model/CApi: a heap of blocks with the layout of their allocation, the conversions and the two free functions of c/src/lib.rs; capacities as parameters; undefined behaviour is `none` | induction over the rows; the freeing clause is refuted for every board |
| C82 | no new model: SpecTape records the accepted events of `Model/Game.step` with what is seen after each | simulation between the game and the replay on a different board: opening is the same as long as everything opened has the same number on both boards; the last clause (effective clicks, solved 3BV) is refuted |
| C83 | `Model/Handle` (the bindings' setter) over `Model/Player` | refinement: while the current event is in range, the bindings' player is the library's own but for the time shown; the last clause (time and rates) is refuted: the bindings' setter leaves the time as it was |
| C84 | `SpecStandard` (the published standard, written down from /repo/evf标准.md) against `Model/Evf` | each reader is inverted (it succeeds iff the bytes have the layout), composed to an iff for whole files; versions 0.0, 0.1, 0.3 and the writer's version number are refuted by counting bytes |
| C85 | `Model/Whole`, `Model/Video`, `Model/Game`, `Model/Evf` | induction over sessions (which event leaves the initial state, which one ends the game), carried to the bytes by C67; the clauses about points off the board, the cell size, official and the no-flag bit are refuted, in general form |
| C86 | `Model/Json` (`serde_json::from_str` is a parameter; `SpecJson.lean` states what is assumed of it, for a grammar of JSON texts shown unambiguous, so that such a reader exists) | `Lemmas/JsonText`: no text spells two values, the texts written are spellings; then the theorems on counting, games and laying; that different matrices are different boards and that no operation lands on another cell is refuted (wrapping to 32 bits) |
| C87 | no new model; `SpecTurn.lean` says what a turned board is | `Lemmas/Turn`: components, numbers, layouts and chances go over along the map; then from the exact characterisations of C03–C07, C32 and C92 |
| C88 | no new model; `SpecGameTurn.lean` says when two games look alike | `Lemmas/GameTurn`: opening, flagging, chording and the test of winning go over along the map, then every arm of `step` (simulation); the clause on the solved 3BV is refuted on a 3x4 board and proved while no zero is flagged |
| C89 | no new model; `SpecLearn.lean` says when a board shows more than another | `Lemmas/Learn`: layouts of the later board are layouts of the earlier one (with the new marks), double counting for the sum, partition of the layouts for the average; refuted beyond the limit of 55 linked cells on a row of 117 cells |
| C90 | `Model/Again`: `analyse` on a video in whatever state (in place; what is not written stays); the first call is the special case of freshly parsed events (`C90_first`) | simulation: the second call runs over the records of the first and gives the same ones with the board ids moved behind the boards already there; player and features do not notice such a move |
| C91 | `Model/Features` (as for C56-C58) | from the exact results of C56-C58: each feature but `survive_poss` adds fixed comments; induction over the series. `survive_poss` erases, the others repeat themselves: two clauses refuted |
| C92 | no new model; the player is `SpecEasy.lean`, given by sets of known cells only (`Settled`, `easy`, `hard`, `Clears`) | `Lemmas/Easy*`: each round of the loop adds only what every settled set contains, and when it finds nothing the known cells are settled (completeness of `solve_direct`, `solve_minus` after chunking); blocks are the groups of linked cells; induction over the rounds |
| C93 | no new model; `SpecRounds.lean` says with sets of cells what one look at the equations finds | `Lemmas/Rounds*`: invariant `Left` (what is left of the equations when the cells `K` are known) through every pass of `solve_direct`, `solve_minus`, `chunk_matrixes`; the order of rows and columns drops out; `Lemmas/ChunkConn`: blocks hang together. Also tightens C27, C28, C31, C41, C44 to exact answers (`Properties/Rounds.lean`) |
| C94 | no new model; `SpecZoom.lean`: the zoomed call, event, video | `Lemmas/Zoom`: every function of `Model/Video`, `Model/Player`, `Model/Features` commutes with zooming (one lemma each), lifted over the loops by `foldlM_zoom`; refuted for `vision_transfer` by an example |
| C95 | no new model; `SpecMoves.lean`: `Twins`, two live videos handled alike but for the movements | `Properties/Moves`: simulation `SameGameBut` (equal but for the events; button events equal) kept by every call, with the invariant `LInv` of sessions giving an event on the board to measure the path from; files: `analyse_clicks`, `analyse_play` (also C52_panics_iff) |
| C96 | no new model; `SpecCareful.lean`: `SureSafe`/`SureMine` on the shown board, `CarefulMove`, `CarefulGame`, `SureClick` | `Lemmas/Careful`: invariant `CareInv` = reachable, running or won, and the knowledge invariant `KInv` of C26 (open cells openable without guessing, flags on forced mines) for the board shown; each kind of move keeps it (`open_step` of C26 for left clicks and chords). `Properties/Careful`: no dead end by `openable_le`, winning by induction on covered safe cells, corollaries through C26 and C34 |
| C97 | no new model | `Properties/Cut`: induction on the events cut off, with `next_eff` and the invariant `ReplayInv` of analysed videos (no change of the beginning once the game has begun); comments through the descriptions of C56, C57 and C58 (each of which is local: a run or a pair of clicks that ends before the cut is the same in both) |
| C98 | no new model | `SpecInformed` (`Allows`, `SafeAmong`, `MineAmong`, `CountingGame`), `Lemmas/Informed`: invariant `CountGame` (every open cell shows its number, every flagged cell is a mine in all layouts of n mines explaining the open cells); the answers through C32, C89 and C41 |
| C99 | no new model | `SpecSecret` (`watch`: all a player sees; `Dealt`; `AgreesWith`; `Chooses`, `NeverLoses`); simulation between the two machines step by step (`Lemmas/GameTwin`, used for C80), the numbers shown at the end bound those shown before; the other board is built from the set of mines. Not seen (and different on the other board): `ce`, `bbbv_solved` |
| C100 | no new model | `SpecOdds` (`alike`, `losing`, `opening`: sets of mines counted by running the game machine on each of them); one-to-one correspondence of `alike` with the layouts counted by C32 (C99, flags taken off); `C100_wrong_flag` shows the hypothesis on flags is needed |
| C101 | no new model | `SpecProgram` (`follow`: the program as a function of what was seen; `Honest`, `Helpful` advice; `CountOpen`, `NoGamble`; `byTable`); phases of a run by induction over the events, the number of open cells as measure; the largest set that can be opened by counting as invariant for the converse (`C101_won`); for the optimality (`Faultless`, `WinsOn`): if a faultless program opened a cell outside that set, an explaining layout with a mine there is a board on which it sees the same and loses (C99) |
| C102 | no new model | `SpecRisk` (`moves`: the events of a file as calls of the machine; `losingBy`: the sets of mines of `alike` with which the next event loses); the layouts of the board without marks are the sets of mines with which the game looks the same (C99); each of the two machines releases the button on the same covered cell |
| C103 | no new model | `Properties/Recorded`: a program cannot tell the board played from the boards with the mines of `alike` (C99), so it makes the same event on them, and does not lose there; the starting cell holds no mine in any of them, as it was opened; comments through C102 |
| C104 | no new model | `Properties/RiskTurn`: the image of a set of mines of `alike` is one of the mirrored game (C88 for the games, C99 for what they look like), in both directions; comments through C56 and C102 |
