{
 "C01": {
  "note": "Year/Month/Day correct for all 65535 serials (and insensitive to rounding). The constructor is proved correct outside 2034-03-01..2100-02-28 and proved one day early inside (code defect in date.cpp:33)."
 },
 "C02": {
  "note": "AddDays wraps modulo 2^16 outside the supported range (C02_addDays_wraps)."
 },
 "C03": {
  "note": ""
 },
 "C04": {
  "note": "False for Feb 2034, Feb 2100, June 2149 on; proved elsewhere."
 },
 "C05": {
  "note": "False when the target month is in the constructor's bad window; proved elsewhere."
 },
 "C06": {
  "note": "Round trip proved outside the constructor's bad window, and proved one day early inside it (C06_violated)."
 },
 "C07": {
  "note": "Fractions are exact rationals. Order and difference proved for times of day in [0,1); the constructor accepts negative fractions, for which the order is wrong (C07_violated)."
 },
 "C08": {
  "note": "Monthly IMM fully proved; CDS and quarterly IMM only from a quarter month (or past the day), the code stops in non-quarter months otherwise (C08_cds_violated, C08_imm_quarterly_violated); EOM forward does not move from a month end (C08_eom_forward_violated). Dates near the constructor's bad window excluded."
 },
 "C09": {
  "note": "Calendars are any list of registered centres; holiday lists strictly ascending as AddCenter enforces."
 },
 "C10": {
  "note": "Includes the exact condition under which the search terminates."
 },
 "C100": {
  "note": "Unbiased for calls and puts from script text to sensitivity (C100_date, C100_greeks, C100_script). Violated for payoffs that jump (C100_digital_violated).",
  "status": "partial"
 },
 "C101": {
  "note": "C101_gradient for any script and widths; C101_digital and C101_digital_narrow for the means of the digital option. Negations are undefined in the code (C34).",
  "status": "proved"
 },
 "C102": {
  "note": "C102_unbiased holds for all generators, schedules and modes; C102_error_partial, C102_confidence_partial, C102_put_partial, C102_call_partial for one task (up to 1024 paths or one thread). For several tasks the claim on the error is false for both generators: C102_mrg and C102_irn give the exact error, C102_mrg_violated and C102_irn_violated show it is larger; C102_irn_one_thread is the schedule under which it holds. The stream of independent normal numbers is the idealisation of the generator.",
  "status": "partial"
 },
 "C103": {
  "note": "The statement about errors is that of one task, as in C102, where several tasks reuse numbers.",
  "status": "proved"
 },
 "C104": {
  "note": "Risks of the parameters are proved for every compiled program with dates after today; risks of constant variables are zero whatever the program (violated), and a payoff copied from today's spot leaves the tape (violated). One task; several tasks add their risks."
 },
 "C105": {
  "note": "One number source is given; dates after today; the cutoff bound B is existential. Failure for copies of constant variables proved (C105_copy_violated)."
 },
 "C106": {
  "note": "The simulation, the table of any prepared product, the table of options and the means of all rows.",
  "status": "proved"
 },
 "C107": {
  "note": "Loop bound over any ordered field, convergence over the reals; doubles are real numbers. The price read off the spline is proved to converge for every spot between the ends (C107_price). Lowest spot positive."
 },
 "C108": {
  "note": "The code violates the claim: the rotation rescales the row instead of mixing in the vector, and the first row cannot be reached with offsets from zero. Proved: exactness in a free row, frame, definedness, and the negations.",
  "status": "partial"
 },
 "C109": {
  "note": "Gradients and columns proved for every program; the claims on single propagation in this mode, mixed recording, cutoff independence and nesting are violated.",
  "status": "partial"
 },
 "C11": {
  "note": "Inverse on business days; C11_not_inverse_off_business_days shows the restriction is needed."
 },
 "C110": {
  "note": "End to end from texts. C110_twice_violated records that smoothing is not idempotent on a date that occurs in the schedule and by itself, as in examples/uoc."
 },
 "C111": {
  "note": "Full claim for past events that do not look at the spot (C111_blind); for the others proved with 30 for every past spot (C111_value_partial, C111_barrier_partial) and the full claim refuted (C111_history_violated). Expired options make no difference up to 127 of them (C111_expired_partial), refuted beyond (C111_expired_violated).",
  "status": "partial"
 },
 "C112": {
  "note": "Proved for dates that can be read back and where the day basis itself is right (C06, C14); unknown names and texts that are no dates are refused. Missing fields are undefined behaviour, further fields are dropped, dates from 2034-03-01 to 2100-02-28 are a day short: negations.",
  "status": "partial"
 },
 "C113": {
  "note": "For all scripts of the syntactic class and all paths, through the models of indexer, IF processor, domain analysis, constant conditions and evaluator. Arithmetic is real arithmetic."
 },
 "C114": {
  "note": "From text to value on any path, exact and smoothed, and to the table with its eight sensitivities; PeriodEnd is taken as already replaced (C115), constants as the parser reads them. Real arithmetic."
 },
 "C115": {
  "note": "Proved for names of word characters and replacements without dollar signs; two violated expectations: macros are replaced inside words, and macros may refer to each other in one alphabetical direction only."
 },
 "C116": {
  "note": "Positive spot; today's event must not assign the bare spot to the payoff variable (otherwise C116_spot_violated)."
 },
 "C117": {
  "note": "Reads, prepares and simulates the rows of the example (C117_rows, C117_simulation) and compares the means with the printed benchmark and its derivatives (C117_benchmark)."
 },
 "C118": {
  "note": "C118_risks, C118_exact, C118_constants: C104 with or without today's date; C118_script: from a processed script, with the conditions of C29_no_else_partial; C118_barrier: the example, in the Black-Scholes model (the example uses Dupire with a constant volatility)."
 },
 "C119": {
  "note": "Black\u2013Scholes model, doubles as real numbers, tasks one after the other; scripts without ELSE (the conditions of C29_no_else_partial). Proved as stated.",
  "status": "proved"
 },
 "C12": {
  "note": "Sequential registration proved; C12_lost_update exhibits an interleaving of two AddCenter calls that loses one centre, so the full claim is false."
 },
 "C120": {
  "note": "Proved for programs that record no more nodes than they have inputs (C120_rewind_partial, C120_exact_partial), and for the example (C120_example). The full claim is false: with one node more the inputs are recorded over (C120_rewind_violated), and the formula with is_call false is minus the call (C120_put_violated).",
  "status": "partial"
 },
 "C121": {
  "note": "MultiV1, MultiV3, MultiV4 and MultiV5 are proved equal for all dimensions, arithmetics and interleavings, and equal to the matrix product. The claim is false for MultiV2 when the result is not square (C121_V2_violated); it is proved for it when it is (C121_same_partial, C121_product_partial).",
  "status": "partial"
 },
 "C13": {
  "note": "Termination, order and end points proved for every tenor that moves strictly; day/week/month tenors shown to; the EOM tenor makes generation run for ever (C13_eom_does_not_terminate)."
 },
 "C14": {
  "note": "ACT/360 and ACT/365F proved; ACT/ACT proved equal to the per-day sum outside the constructor's bad window; counterexamples: infinite recursion (C14_actAct_violated), no antisymmetry across years, ACT/365L search that does not return, 30/360 days not capped."
 },
 "C15": {
  "note": "Equality, order, and map-key uniqueness proved for all byte strings and for signed or unsigned char. Full claim (ASCII case only) fails for bytes above 127: 0xC1 and 0xE1 compare equal (C15_high_bytes_conflated); the exact relation is C15_eq_iff_fold."
 },
 "C16": {
  "note": "Proved for all ASCII strings (toupper and the bitset index are undefined for negative char)."
 },
 "C17": {
  "note": "Proved for every byte string and every pair of step numbers, with case-insensitive comparison."
 },
 "C18": {
  "note": "Proved for every alphabet, separator and piece list."
 },
 "C19": {
  "note": "Proved for all boolean vectors, and for comma separated words."
 },
 "C20": {
  "note": "Round trip reduces to survival of each value; survival decided for integers, dates, date-times, strings; booleans, blanks, numbers of 2147483647 or more, and strings that look like numbers/dates do not survive.",
  "status": "partial"
 },
 "C21": {
  "note": "Iterators, Collect, Find and ENV_ADD/ENV_SEED blocks with exceptions modelled; environments are immutable while reachable so pointers are modelled by their targets."
 },
 "C22": {
  "note": "Proved for names without '~'; a name containing '~' is erased by adding a prefix of it (C22_tilde_violated), and concurrent adds can leave duplicates (C22_concurrent_violated). Live objects are assumed to have distinct address texts; the regular expression is an arbitrary predicate on tags.",
  "status": "partial"
 },
 "C23": {
  "note": "Holds for block-structured overrides including exceptions; move assignment onto a live override loses the saved date (C23_move_assign_violated)."
 },
 "C24": {
  "note": "The map of date-times and the store by index name are modelled; the store itself must have been installed (nothing in the library installs one)."
 },
 "C25": {
  "note": "Round trip proved for trees whose values are non-empty and whose vectors have no blank entries and whose matrices have at least two columns or are not last; each excluded case is shown to lose data or read/write out of bounds.",
  "status": "partial"
 },
 "C26": {
  "note": "Strings without quotes, backslashes or control characters, booleans, dates outside the constructor's bad window, numbers with at most six decimals, and vectors and matrices of them survive. Integers never survive (proved for all integers); quotes, backslashes, blank cells and date-like strings change.",
  "status": "partial"
 },
 "C27": {
  "note": "Tokenizer and recursive-descent parser of events modelled on token lists (script/parser.cpp, parser.hpp); every derivation of an independent grammar (four expression levels, conditions, statements, IF blocks) parses to its tree; unambiguity, termination on all inputs, minimal and full parenthesisation round trips and token round trip proved. DCF(...) and ToDouble are parameters. Found: leftovers in parentheses dropped, comparisons starting with a parenthesis refused, reading past the end for an unfinished IF, caret accepted as a name, trailing comma accepted."
 },
 "C28": {
  "note": "VarIndexer_ as a map over events; the result is the program renamed by one function of names, with reported names in slot order. Names are compared with decidable equality (String_ equality is case-insensitive)."
 },
 "C29": {
  "note": "Streams with positions, constant indices, jump targets and the room of both stacks (128). Proved when no condition is tested after a taken IF..ELSE in the same event, no folded >= constant lies in (-EPSILON,0) and no expression or condition needs more than 128 cells; all three exceptions are proved to break the claim. Derivatives are not modelled here."
 },
 "C30": {
  "note": "Every marked expression reached by any execution has the marked value. Parsed products carry no marks before (FreshSs)."
 },
 "C31": {
  "note": "Exact recorded sets proved for all products; completeness with respect to execution for scripts that do not assign to constant names (violation proved)."
 },
 "C32": {
  "note": "Interval arithmetic over an ordered field with infinite bounds, the set of intervals, the processor for expressions, conditions and statements. Proved: AddInterval terminates and is exact union; values stay in domains and marks are right on every run (past and simulated events), so removal of decided conditions preserves products; discrete bounds enclose no reachable value; the analysis never throws if divisors are numbers, constants or the spot (C32_total). Partial because the code is unsound for negative logarithms and for MAX/MIN with more than two arguments, and throws on a divisor that is zero for certain (violations proved)."
 },
 "C33": {
  "note": "Marks right along the execution imply the processed event gives the same variables (any nesting, whole products); no marked condition is left. Truthfulness of the marks is C32.",
  "status": "proved"
 },
 "C34": {
  "note": "Range, connectives, blending (store-based evaluator refines the store-free average semantics) for all scripts; sharp equality and definedness for negation-free conditions. Violated: NOT (and !=) pops an empty Boolean stack (undefined behaviour); width 0 gives 0/0 at a tie.",
  "status": "partial"
 },
 "C35": {
  "note": "All rows, macros, schedules. Regular expressions, schedule reading and the parser are parameters.",
  "status": "proved"
 },
 "C36": {
  "note": "Step semantics with one action per critical section and per notification, any number of threads, any interleaving, spurious wake-ups included. ResetInterrupt and Clear take no lock and are not part of concurrent runs."
 },
 "C37": {
  "note": "Step semantics over queue operations; tasks are leaf tasks that end. At most once, FIFO start, no deadlock, bounded runs, wait ends. Thread numbers distinct only for one client (partial; two clients share number 0, proved). The unsynchronised flag interrupt_ (a data race in the C++ sense) is outside the model."
 },
 "C38": {
  "note": "Loop, batch size, casts and reservation modelled exactly (int overflow undefined, casts modulo 2^32); sums in a commutative monoid instead of doubles. Below 2^31-1 paths everything holds; beyond, paths are lost (proved)."
 },
 "C39": {
  "note": "Both generators, from every seed, after every number of draws, keep within their tables and give numbers strictly inside (0,1); before shuffling the first is the lagged sequence with lags 55 and 31; intermediate values are exact in doubles and the one rounded division truncates to the same integer. FillUniform with antithetics: for vectors of one size; a longer vector after a shorter one gives exactly 1 (violation proved).",
  "status": "partial"
 },
 "C40": {
  "note": "SkipTo of MRG32k32a is proved to be the state after floor(n*NDim/2) draws (matrix powers modulo m, wraparound included): right for an even number of FillUniform calls, wrong for FillNormal, which the simulation uses, so batches reuse paths (violations proved). SkipTo of ShuffledIRN does nothing and never equals the skipped state unless the number of draws is a multiple of 55.",
  "status": "partial"
 },
 "C41": {
  "note": "Construction proved in range for every size, each point once and between built neighbours; the transform is linear and preserves the sum of squares for arbitrary increasing times, with the square root as a parameter. Doubles are an ordered field. Zero dimensions index out of range.",
  "status": "proved"
 },
 "C42": {
  "note": "Allocation, marks and rewinding of the block list are proved for every sequence of operations: earlier storage never moves, rewinding to the mark restores it. Going from Begin to End is right unless the last block is exactly full, where it leaves the list (proved); Clear leaves the mark dangling (proved).",
  "status": "partial"
 },
 "C43": {
  "note": "For every recorded program at regular points the adjoints are the partial derivatives, exactly without the cutoff and within eps times the sum of absolute derivatives with it; paths accumulate from a mark. Violated: derivatives lost to the cutoff, ties of max, results recorded before the mark. Reals stand for doubles; the multi-result mode is not modelled.",
  "status": "partial"
 },
 "C44": {
  "note": "Refinement to a list for pushes, pops, resets, copies, moves and assignments across growth, for both stacks. Violated: TopAndPop of the growable stack reads above the top; pushing after Clear or a move writes through null.",
  "status": "partial"
 },
 "C45": {
  "note": "Multiplication, writing and solving are proved for every size over an ordered field; solving inverts multiplication whenever the decomposition succeeds, which diagonal dominance guarantees; a vanishing pivot is refused. The matrix' own multiplication is wrong when source and result are the same vector (proved).",
  "status": "partial"
 },
 "C46": {
  "note": "Multiplication, writing and the lower triangular solve of banded matrices are proved for every size and band; the transposed solve only for diagonal ones (in general, its inner loop while it stays inside). Violated: no banded matrix with elements above and below is ever decomposed, the symmetry check and the transposed solve read outside, the accumulator's right solve is its left solve. Accumulator Add and QForm are not modelled.",
  "status": "partial"
 },
 "C47": {
  "note": "Solve and multiply are inverse to each other and the covariance of correlated samples is the multiplied operator, for every decomposition with nonzero diagonal. Without regularisation the operator of a positive definite matrix is that matrix (C47_factor_partial: the code always regularises); with regularisation the difference is given exactly. Ordered field with a square root. In place and out of place agree with the same statement.",
  "status": "partial"
 },
 "C48": {
  "note": "One and two dimensions, halving search included, every accepted node set over an ordered field. Of repeated nodes, which the constructor accepts, only the first (in rows: the last) is reproduced, and no data at all are accepted but cannot be evaluated (both proved). Derivatives of the AAD version are not modelled.",
  "status": "partial"
 },
 "C49": {
  "note": "Over the reals, for every accepted node set and boundary condition of order 1, 2 or 3: values, differentiability twice with continuous curvature on the whole line, boundary conditions; and which inputs are accepted.",
  "status": "proved"
 },
 "C50": {
  "note": "For every data set with positive weights over an ordered field: zero penalty and constant data as claimed; the values minimise the penalised sum of squares with the penalties the code uses, which are shifted by one pair. That the first pair is coupled is false (proved for every input, and with a witness of a smaller sum).",
  "status": "partial"
 },
 "C51": {
  "note": "Every function over an ordered field, every number of steps: bracketing, nesting, halving under bisection, the hunt phase and the test of convergence; roots by the intermediate value theorem over the reals. Where the function vanishes at both ends the next place is 0/0 (proved).",
  "status": "proved"
 },
 "C52": {
  "note": "Addressing, distinctness of elements, slices and access by three numbers are proved for every rank, shape and index. Resizing is proved only for shapes that need no more storage than before and for elements other than the one at the origin; the origin is lost by every resizing, growing leaves the storage at its old size, a shape with a zero size reads outside the storage and rank zero reads the first of no strides: these are proved as violations.",
  "status": "partial"
 },
 "C53": {
  "note": "Every linear matrix, preconditioner, right-hand side, tolerance and number of iterations: what is returned has the residual asked for; for symmetric positive definite matrices and preconditioners as many iterations as rows are enough. The clause on an exact initial guess fails: it divides zero by zero, for every matrix (proved as a violation).",
  "status": "partial"
 },
 "C54": {
  "note": "Proved for every shape, every valid address and every extension of the axes: reading what was written, leaving all else alone, one report value per cell. An address with an invalid location past the first axis reads another cell, a refused address truncates rows, and a repeated axis name makes setting by name write outside (proved as violations).",
  "status": "partial"
 },
 "C55": {
  "note": "Every strictly increasing set of knots and every rate over an ordered field (the discount factor over the reals): values, additivity of the integral, positivity, composition, monotonicity and shifts. A piecewise linear curve without knots reads outside (proved); the constructor does not check.",
  "status": "proved"
 },
 "C56": {
  "note": "Every pair of requirements with keys and dates of any linear order: commutative, associative, idempotent, order of merging any list irrelevant, latest date kept, Include the same.",
  "status": "proved"
 },
 "C57": {
  "note": "All format strings, argument lists and tables of any size. C57_format_writes_the_layout: every string that is understood writes exactly the declared table, no write outside, each cell as the layout has it; the grammar is characterised by C57_parse_*; transposing or inverting twice is the identity. C57_missing_piece_violated: empty pieces read the back of an empty string. int and size_t arithmetic on dimensions is unbounded.",
  "status": "proved"
 },
 "C58": {
  "note": "Container: any history of the operations keeps the storage consistent (C58_any_history); elements, resize, transpose, append, rows and columns as vectors; products, weighted inner product and J-squared accumulation equal the textbook sums, also when the result is an operand. Negations proved: resizing with unchanged columns exposes the spare row, transposing a matrix without columns is undefined, appending a narrower matrix throws after having resized, longer later vectors spill. Move construction and Swap not modelled; double is a field.",
  "status": "partial"
 },
 "C59": {
  "note": "All forwards, strikes and volatilities over the reals, with erfc as defined by its integral. Prices are between payout and forward (Bachelier: within the ten standard deviations beyond which the code takes the density as 0).",
  "status": "proved"
 },
 "C60": {
  "note": "Field arithmetic instead of doubles; grids of at least three points with strictly increasing nodes; the claims about one step hold wherever the linear system can be solved. Edge rows are never discounted (C60_edges_not_discounted)."
 },
 "C61": {
  "note": "Violated in three ways that are proved: fx names never parse since the fx parser is not registered (C61_fx_violated), equity names with a closing bracket are cut, delivery dates from March 2034 to February 2100 come back a day early. The partial theorem covers every other equity index; the fx parser alone gives back every index.",
  "status": "partial"
 },
 "C62": {
  "note": "Every path, range, ramp and collar over an ordered field; monitoring over any archimedean field. The extremum of a path is not computed: it is the bound of the collar or 0 (proved as violations).",
  "status": "partial"
 },
 "C63": {
  "note": "Exact arithmetic. The Dupire line keeps gaps at or below the maximum step times 1+EPSILON; the strict bound, today on the line for a first date within half a day, and processing a product twice fail and the negations are proved. Steps of the state are arbitrary, so the Dupire dynamics (local volatility interpolation) are covered only through that.",
  "status": "partial"
 },
 "C64": {
  "note": "All rates, periods and clearing houses, decided over the whole of the finite types.",
  "status": "proved"
 },
 "C65": {
  "note": "C65_split_partial: for volatilities of at least EPSILON and a square symmetric matrix, correlations and volatilities recover the covariance, the diagonal is 1. C65_small_variance_violated: below EPSILON the diagonal is not 1. Real arithmetic.",
  "status": "partial"
 },
 "C66": {
  "note": "Whole table."
 },
 "C67": {
  "note": "All fifteen generated enumerations, every text. A refused registration can leave names registered, and any two extensions compare equal (proved as violations).",
  "status": "partial"
 },
 "C68": {
  "note": "Proved over the reals wherever the formula applies, for moneyness within ten standard deviations. Fails for the Bachelier model when forward and strike differ in sign (the price ignores the volatility, the vega is positive), and at zero volatility there are prices but no greeks (proved as violations).",
  "status": "partial"
 },
 "C69": {
  "note": "Real arithmetic instead of doubles."
 },
 "C70": {
  "note": "Month and year steps are proved where the date constructor is right (before February 2034 and from March 2100); beyond it C05_violated applies. Holiday names are read by a parameter.",
  "status": "partial"
 },
 "C71": {
  "note": "Proved for every history of registrations, calendars and counters run by one thread; sorting is any function meeting the contract. A centre whose name contains a space cannot be named (C71_spaced_name_violated).",
  "status": "partial"
 },
 "C72": {
  "note": "Proved when FIXING is absent or last; otherwise the schedule is refused (C72_fixing_not_last_violated). Without FREQ or with fewer than two tokens the behaviour is undefined (C72_no_frequency_violated), as with fewer than three tokens for a date (C72_short_date_violated). Calendars from text and pin dates are parameters (C71, C13).",
  "status": "partial"
 },
 "C73": {
  "note": "Proved except that a product by a diagonal matrix cannot be put into a new vector (C73_diagonal_into_empty_violated) and that multiplying a lower triangular matrix from the left leaves out its diagonal, so that it never undoes solving (C73_lower_left_violated).",
  "status": "partial"
 },
 "C74": {
  "note": "Proved except that a failed initialisation is never completed by a retry (C74_half_initialised_violated) and that no currency but the yuan has a fixing calendar, so that starting a rate is an exception for it (C74_other_currencies_violated).",
  "status": "partial"
 },
 "C75": {
  "note": "Over ordered fields; the solvers are parameters with their specification. Termination, tolerance, limits, secant updates and steps for all problems; answers for affine functions. The minimiser of the line search is right only in two special cases, good steps are rejected, a search gives up on a descent, a debug build can abort, and approximations of affine functions end in zeros over zeros or never leave the guess (violated theorems).",
  "status": "partial"
 },
 "C76": {
  "note": "Histories by induction, over the model of environments of C21; handles are identities. A passive or showing auditor turns every audit into an exception after telling the inner auditors, the first search of a process on an empty bag is undefined, and so is an auditor whose mode was never set (violated theorems)."
 },
 "C77": {
  "note": "Proved: flat volatilities give Black\u2013Scholes, steps at nodes, means on any grid, gradients of Black\u2013Scholes and of Dupire for volatilities that do not vary with the spot, filling of scenarios. Missing because false in the code: derivatives when the volatility varies with the spot (C77_spot_violated, C77_vega_violated) and forwards (C77_forward_violated, C77_no_forwards_violated).",
  "status": "partial"
 },
 "C78": {
  "note": "Parameters, clones, writes, model data, results, risks over all schedules and the report proved; slides, copies, unknown names and name clashes are proved to fail.",
  "status": "proved"
 },
 "C79": {
  "note": "Proved: the calibrated row and matrix, views and bumps, the Merton mixture. The local volatility is proved for equal rates (C79_local_vol_partial); for others the code is proved wrong (C79_local_vol_violated). Calibration outside the range and the truncated mixture are proved to fail.",
  "status": "partial"
 },
 "C80": {
  "note": "Exact for expressions: defined iff the room fits. Past events are the exception: each past payment leaves its amount on the stack, proved for any number up to the room (C80_past_partial) and proved to run outside it beyond (C80_past_violated). Compiled evaluation has the room in C29.",
  "status": "partial"
 },
 "C81": {
  "note": "Readers characterised exactly (C81_int, C81_kinds, C81_single, C81_vector, C81_matrix, C81_records, C81_dictionary, C81_date); the block read is the least closed one (C81_block) and whole rectangles are read (C81_rectangle); no reader leaves what is defined for what Excel passes (C81_defined). Fails: a missing optional date and a blank array of one cell (C81_missing_violated), numbers that are no dates (C81_date_range_violated), times at the end of a day (C81_dateTime_violated), one blank row counts as a record (C81_blank_record_violated), integer cells (C81_integer_cell_violated).",
  "status": "partial"
 },
 "C82": {
  "note": "C82_layout gives every cell of the result, C82_rows the number of rows; round trips for vectors, matrices, single values, texts, dates, times and numbers. Fails: empty vectors alone announce cells without memory (C82_empty_vector_violated), texts with a zero (C82_text_violated), blank entries inside vectors cut them off on reading (C82_blank_entry_violated).",
  "status": "partial"
 },
 "C83": {
  "note": "Elementwise arithmetic, equality, ranges, Unique, monotonicity, zipping, maps, conversions to integers and statistics are characterised for all inputs. Violated parts: sizes are not checked, XRange of no points, Unique with coarse orders, second values of keys, ends of int, norms below 1, covariance of nothing.",
  "status": "partial"
 },
 "C84": {
  "note": "Global stack of notes refined to lexical notes for all block programs; violated: a note of a temporary (report.cpp) makes every throw read a dead value, and a throw without notes leaves an empty vector behind.",
  "status": "partial"
 },
 "C85": {
  "note": "Dates and names proved for all cells; violated: fixed times go through spot, day offsets have dates but no name, an empty text passes as maturity, the collateral is dropped, names collide and cannot be parsed.",
  "status": "partial"
 },
 "C86": {
  "note": "Spline CDF strictly increasing, continuous, symmetric, through its table (exact rational fit checked by the kernel); inverse strictly increasing over (0,1) without polish, symmetric with and without. Violated: spline tail decays with twice the exponent; the inverse is NaN at 0 and 1. Polish: one-sided result only.",
  "status": "partial"
 },
 "C87": {
  "note": "proved: what the visitor prints for every tree and product, and that the text determines form, kinds, names without commas, indices and numbers up to six decimals; the numbers themselves are not determined (violated)",
  "status": "partial"
 },
 "C88": {
  "note": "proved: writing and reading together build an isomorphic graph for every acyclic heap of values the format can store; the members of all classes of the library cannot be confused; the first registration wins. Violated: truth values do not come back, untagged objects are conflated, readers demand what writers do not, later registrations are dropped",
  "status": "partial"
 },
 "C89": {
  "note": "Proved for plain contents; long lines, texts that look like numbers or booleans, commas, = signs, small fractions and missing files violate the claim, each with a theorem. std::strtod and std::to_string of fractions are parameters",
  "status": "partial"
 },
 "C90": {
  "note": "Partial: the round trip holds for the values that the format keeps. Generators and reports are written and never read, and names with quotes change or break the text; these are proved as violations.",
  "status": "partial"
 },
 "C91": {
  "note": "Partial: quiet calls without an access object read a null pointer, and JSON loses fractions of seconds and of millionths; both are proved.",
  "status": "partial"
 },
 "C92": {
  "note": "Proved for all inputs with enough labels and all sequences of calls. Fewer labels are undefined behaviour, longer functions leave the range and used names leave unnamed sheets (violations with proofs). Excel itself is reduced to cells, sheets, ranges and the rule of names.",
  "status": "partial"
 },
 "C93": {
  "note": "Kinds, settings and the round trip through dictionaries are proved for all inputs; the round trip through text for tolerances that survive (partial, with violations proved).",
  "status": "partial"
 },
 "C94": {
  "note": "Proved on top of the models of C48, C49 and C50; numbers are exact. The declared conditions are not enough: empty data are accepted and then read outside (C94_empty_violated, C94_grid_empty_violated), two points pass the conditions of a spline and are refused (C94_two_points_violated), and the first value is not smoothed (C94_smoothed_violated).",
  "status": "partial"
 },
 "C95": {
  "note": "Proved on top of the generators of C39. Violations proved: C95_own_name_violated, C95_seed_violated, C95_zero_seed_violated, C95_clone_violated, C95_precise_violated, C95_branch_violated, C95_stored_violated, C95_pure_violated.",
  "status": "partial"
 },
 "C96": {
  "note": "Table, order, lookup by name and conversion of dates are proved; violated for names that differ in case only, no paths, serials out of range, dates as text and empty cells.",
  "status": "partial"
 },
 "C97": {
  "note": "Proved: C97_black, C97_black_small, C97_black_certain, C97_bs_law, C97_bs, C97_dupire_flat, C97_script. Partial: C97_bachelier_partial holds for forward and strike of the same sign at most ten deviations apart; C97_bachelier_sign_violated and C97_bachelier_tail_violated show the rest is false in the code.",
  "status": "partial"
 },
 "C98": {
  "note": "Partial because the code violates it: tolerance of places in units of the forward, far strikes, the guess and the signs in BachelierIV, and ParameterNames. Ending within thirty attempts is not claimed.",
  "status": "partial"
 },
 "C99": {
  "note": "The derivative of any script run with Number_ is the derivative of the script run with doubles, away from ties and singular points (C99_gradient); values always agree (C99_values).",
  "status": "proved"
 }
}