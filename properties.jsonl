{"id": "C01", "title": "Calendar dates round-trip", "statement": "Every date obtainable from the library reports a (year, month, day) that is a real Gregorian date, constructing a date from that triple gives the same date back, and constructing a date from any real Gregorian triple inside the supported range reports exactly that triple. The Excel serial number round-trips in the same way.", "quantifier": "for every supported date and every Gregorian (year, month, day) triple in range", "why_tests_cant": "The conversion is closed-form arithmetic with truncations at century, leap-year and month boundaries; a unit test samples a few dates out of 65535.", "anchors": ["dal/time/date.cpp: ExcelDateToYMD, ExcelDateFromYMD, SerialFromYMD, Date::Year, Date::Month, Date::Day, Date::ToExcel, Date::FromExcel"]}
{"id": "C02", "title": "Date order and difference follow the calendar", "statement": "date1 < date2 holds exactly when (y1,m1,d1) precedes (y2,m2,d2), date2 - date1 is the number of calendar days between them, and AddDays(n) moves by n days and is undone by AddDays(-n) while the result stays in range.", "quantifier": "for all pairs of supported dates and all day counts", "why_tests_cant": "Must hold across every leap year and month end, including the 16-bit wrap of the internal representation.", "anchors": ["dal/time/date.hpp: operator-, operator<, AddDays", "dal/time/date.cpp"]}
{"id": "C03", "title": "Day of week", "statement": "DayOfWeek agrees with the Gregorian weekday for every date, advances by one modulo 7 from each date to the next, and IsWeekEnd holds exactly on Saturdays and Sundays.", "quantifier": "for every supported date", "why_tests_cant": "A shifted anchor or a wrong modulus only shows for some dates.", "anchors": ["dal/time/date.cpp: Date::DayOfWeek", "dal/time/date.hpp"]}
{"id": "C04", "title": "Month lengths and month ends", "statement": "DaysInMonth(y, m) is the Gregorian month length, and EndOfMonth(d) is the last day of d's month: it is in the same year and month as d, is not before d, and the next day is in another month.", "quantifier": "for every year/month in range and every date", "why_tests_cant": "Leap-century rules and December rollover are corner cases.", "anchors": ["dal/time/date.cpp: DaysInMonth, EndOfMonth"]}
{"id": "C05", "title": "Adding months clamps to the month", "statement": "AddMonths(d, n) lands in the calendar month exactly n months from d's month, on d's day-of-month clamped to the length of that month; with end-of-month preservation it lands on the last day whenever d is a last day; it never spills into another month.", "quantifier": "for every date, every signed number of months (result in range) and both end-of-month settings", "why_tests_cant": "Negative counts with truncating division, year carries and clamping interact; tests cover a handful of combinations.", "anchors": ["dal/time/date.cpp: Date::AddMonths"]}
{"id": "C06", "title": "Date text round trip", "statement": "Formatting a date as text and parsing that text returns the same date.", "quantifier": "for every supported date", "why_tests_cant": "Zero padding, separators and parser alternatives must agree on all inputs.", "anchors": ["dal/time/date.cpp: Date::ToString", "dal/time/dateutils.cpp: Date::FromString, Date::IsDateString"]}
{"id": "C07", "title": "DateTime order and addition", "statement": "DateTime values compare first by date then by time of day; adding a fraction of days carries into the date so the time part stays in [0,1), and subtraction measures exactly the amount added.", "quantifier": "for all date-times and all day fractions", "why_tests_cant": "Carry and borrow at midnight, negative increments.", "anchors": ["dal/time/datetime.cpp", "dal/time/datetime.hpp"]}
{"id": "C08", "title": "Special-day increments", "statement": "Stepping a date forward (backward) to the next IMM, one-month IMM, CDS or end-of-month day gives a date strictly after (before) it, the result is such a special day, and no special day is skipped. An IMM day is the third Wednesday of the month.", "quantifier": "for every date and every special-day kind, and every repetition count", "why_tests_cant": "Correctness depends on the position of the date inside its month and quarter.", "anchors": ["dal/time/dateincrement.cpp: SpecialDay_, IMMDay, ToIMM, ToCDS, IncrementMultistep_"]}
{"id": "C09", "title": "Business-day counting", "statement": "The count of business days between two dates equals the number of dates in the half-open interval that are business days, so it is additive over adjacent intervals; a date is a business day exactly when it is a declared working weekend or is neither a weekend day nor a holiday of any of the named centres.", "quantifier": "for every calendar set, every list of centres and every pair of dates", "why_tests_cant": "Counting uses week arithmetic and binary searches instead of a scan; off-by-one errors occur only for particular weekday alignments.", "anchors": ["dal/time/holidays.cpp: CountBusDays_, Holidays::IsHoliday", "dal/time/holidaydata.cpp"]}
{"id": "C10", "title": "Next and previous business day", "statement": "NextBus returns the least business day on or after the date and PrevBus the greatest on or before; both are idempotent and terminate whenever a business day exists.", "quantifier": "for every calendar and every date", "why_tests_cant": "Long runs of holidays adjacent to weekends.", "anchors": ["dal/time/holidays.cpp: Holidays::NextBus, Holidays::PrevBus"]}
{"id": "C11", "title": "Business-day steps invert", "statement": "Stepping forward n business days and then back n business days from a business day returns to it; the libor start date computed from a fixing date is exactly n business days later, and the fixing date computed from that start is the original when the original is a business day.", "quantifier": "for every calendar, every business day and every n", "why_tests_cant": "The two directions are implemented by separate loops; the source carries a TODO that they are not consistent.", "anchors": ["dal/protocol/conventions.cpp: Libor::StartFromFix, FixFromStart", "dal/time/dateincrement.cpp: Increment step BD"]}
{"id": "C12", "title": "Registering holiday centres from several threads", "statement": "After any set of concurrent registrations of distinct centres completes, every registered centre can be found with its holidays.", "quantifier": "for every number of threads and every interleaving", "why_tests_cant": "Races appear only in rare interleavings.", "anchors": ["dal/time/holidaydata.cpp: Holidays::AddCenter"]}
{"id": "C13", "title": "Schedule generation", "statement": "Building a schedule from a start date, an end or number of periods and a tenor terminates, and yields a strictly increasing list of dates without duplicates that starts at the start date and ends at the end date.", "quantifier": "for every start, end, tenor and generation direction", "why_tests_cant": "Termination and boundary handling depend on arbitrary tenor/date combinations.", "anchors": ["dal/time/schedules.cpp: DateGenerate, MakeSchedule"]}
{"id": "C14", "title": "Day-count fractions", "statement": "Year fractions of actual day bases are additive over adjacent periods, antisymmetric and non-negative for ordered dates; ACT/365L counts leap-year days over 366; the 30/360 bond basis gives month-granular fractions and caps days at 30.", "quantifier": "for all pairs/triples of dates", "why_tests_cant": "Year boundaries, leap days and end-of-month adjustments.", "anchors": ["dal/time/daybasis.cpp: ACT_360, ACT_365F, ACT_365L, ACT_ACT, BOND"]}
{"id": "C15", "title": "Case-insensitive strings order totally", "statement": "String comparison ignores letter case only: equality is an equivalence relation that holds exactly when the strings agree up to ASCII letter case, and 'less than' is a strict total order on the equivalence classes, so ordered maps keyed by strings hold at most one entry per case-insensitive key.", "quantifier": "for all pairs/triples of strings over all byte values", "why_tests_cant": "A comparator that is not a strict weak order corrupts every map keyed by it; only an argument over all triples settles it.", "anchors": ["dal/string/strings.hpp: ci_traits, String_", "dal/string/strings.cpp: SortVal, CI_ORDER"]}
{"id": "C16", "title": "Condensed form decides equivalence", "statement": "Condensing a string (dropping blanks, tabs and underscores, upper-casing) is idempotent and Equivalent(lhs, rhs) for a condensed rhs holds exactly when the condensed lhs equals rhs.", "quantifier": "for all strings", "why_tests_cant": "Interleaved separators at arbitrary positions.", "anchors": ["dal/string/strings.cpp: String::Condensed, String::Equivalent"]}
{"id": "C17", "title": "Generated names never repeat", "statement": "Repeatedly asking for the next name never returns a name already produced in the sequence, and each result differs from its predecessor.", "quantifier": "for every starting name and every number of steps", "why_tests_cant": "A collision could occur after arbitrarily many steps (carry).", "anchors": ["dal/string/strings.cpp: String::NextName"]}
{"id": "C18", "title": "Split and join", "statement": "Splitting the separator-joined text of a list of separator-free pieces returns the list (up to the documented handling of empties), and joining the split text (keeping empties) restores the text up to one trailing separator.", "quantifier": "for all piece lists and all separators", "why_tests_cant": "Edge handling of empty and trailing pieces.", "anchors": ["dal/string/strings.cpp: String::Split, String::Accumulate"]}
{"id": "C19", "title": "Boolean vectors survive text form", "statement": "A vector of booleans written to a cell/text and parsed back is the same vector.", "quantifier": "for all boolean vectors", "why_tests_cant": "Special words (true/false) and lists share the same character alphabet.", "anchors": ["dal/math/cell.cpp: Cell::FromBoolVector", "dal/string/stringutils.cpp: String::ToBoolVector"]}
{"id": "C20", "title": "Dictionary text round trip", "statement": "A dictionary rendered to its text form and parsed back contains the same keys and values, keys are matched up to case, blanks and underscores, and inserting a duplicate key is rejected.", "quantifier": "for all dictionaries whose values are representable", "why_tests_cant": "Quoting, separators inside values, key normalisation.", "anchors": ["dal/utilities/dictionary.cpp"]}
{"id": "C21", "title": "Environment scoping", "statement": "Within nested environment scopes a lookup finds the innermost matching entry and leaving a scope restores exactly the previous environment, in every nesting and exit order produced by block structure.", "quantifier": "for every nesting of scopes", "why_tests_cant": "Stack discipline over arbitrary nesting depth and exceptional exits.", "anchors": ["dal/utilities/environment.cpp", "dal/utilities/environment.hpp"]}
{"id": "C22", "title": "Object repository", "statement": "Adding an object makes it retrievable under the returned tag; adding with the default rule removes exactly the earlier objects of the same type and name; erasing by pattern or object removes exactly the matching entries; size counts the live entries.", "quantifier": "for every sequence of add/find/erase operations", "why_tests_cant": "Prefix-range erasure over an ordered map depends on arbitrary names.", "anchors": ["dal/storage/_repository.cpp"]}
{"id": "C23", "title": "Scoped overrides of global dates restore", "statement": "An override of the evaluation date is visible while it is alive and, when overrides are released in LIFO order, the date before the override is restored.", "quantifier": "for every nesting of overrides", "why_tests_cant": "Restoration must hold for every nesting including move-assignment of overrides.", "anchors": ["dal/storage/globals.cpp", "dal/storage/globals.hpp: XGLOBAL ScopedOverride_"]}
{"id": "C24", "title": "Fixing history", "statement": "Storing fixings merges them into the history (later stores win on the same time, nothing else is lost), the history is chronological, and looking a time up returns the stored value exactly when one was stored.", "quantifier": "for every sequence of stores and every lookup", "why_tests_cant": "Accumulation over arbitrary histories.", "anchors": ["dal/storage/globals.cpp: StoreFixings", "dal/indice/fixings.cpp: FixHistory_::Find"]}
{"id": "C25", "title": "Spreadsheet archive round trip", "statement": "An object tree written to a rectangular grid of cells and read back yields the same tree.", "quantifier": "for all trees", "why_tests_cant": "Layout is positional: siblings, nested children and empty vectors can collide.", "anchors": ["dal/storage/splat.cpp"]}
{"id": "C26", "title": "JSON archive round trip", "statement": "Integers, dates, strings and vectors written through the JSON archive are read back unchanged.", "quantifier": "for all values", "why_tests_cant": "Formatting loses information for whole classes of values.", "anchors": ["dal/storage/json.cpp"]}
{"id": "C27", "title": "Script arithmetic precedence", "statement": "Parsing the text of an arithmetic expression yields the expression tree given by the usual precedence and left associativity; parsing the fully parenthesised text of any tree returns the tree.", "quantifier": "for all expression trees", "why_tests_cant": "Recursive grammar; unbounded nesting.", "anchors": ["dal/script/parser.cpp: ParseExpr, ParseExprL2, ParseExprL3, ParseParentheses, ParseVarConstFunc"]}
{"id": "C28", "title": "Script variable indexing", "statement": "Every occurrence of the same variable name receives the same slot, different names receive different slots, every slot is below the number of variables, and the reported names are listed in slot order.", "quantifier": "for every script", "why_tests_cant": "Depends on the order of first occurrences over arbitrary scripts.", "anchors": ["dal/script/visitor/varindexer.hpp"]}
{"id": "C29", "title": "Compiled evaluation equals interpretation", "statement": "For every script, every market path and every initial state, running the compiled instruction stream leaves the same variable values as interpreting the syntax tree.", "quantifier": "for all scripts, scenarios and initial variable values", "why_tests_cant": "A per-node translation; a bug shows only for particular operand shapes or nestings.", "anchors": ["dal/script/visitor/compiler.hpp", "dal/script/visitor/evaluator.hpp"]}
{"id": "C30", "title": "Constant propagation is sound", "statement": "Whenever preprocessing marks an expression as constant with a value, evaluating that expression on any scenario at that point of the script yields exactly that value; values that may vary across scenarios are never marked constant.", "quantifier": "for all scripts, all scenarios", "why_tests_cant": "Flow-sensitive static analysis across branches and events.", "anchors": ["dal/script/visitor/constprocessor.hpp"]}
{"id": "C31", "title": "Branch effect sets are complete", "statement": "The set of variables recorded for an if-statement contains every variable whose value can change when executing either branch, including nested ifs and payments.", "quantifier": "for all scripts and all scenarios", "why_tests_cant": "Completeness over arbitrary nesting.", "anchors": ["dal/script/visitor/ifprocessor.hpp"]}
{"id": "C32", "title": "Domain analysis is sound", "statement": "Whenever domain preprocessing marks a condition always-true or always-false, the condition evaluates so on every scenario with positive spot.", "quantifier": "for all scripts and all scenarios", "why_tests_cant": "An over-approximation argument over all executions.", "anchors": ["dal/script/visitor/domainproc.hpp", "dal/script/visitor/domain.hpp", "dal/script/visitor/domain.cpp"]}
{"id": "C33", "title": "Removing constant conditions preserves results", "statement": "Replacing if-statements whose condition is marked always-true or always-false by the corresponding branch does not change any variable's value on any scenario.", "quantifier": "for all scripts and all scenarios", "why_tests_cant": "Tree rewriting in place, with nested removals.", "anchors": ["dal/script/visitor/constcondprocessor.hpp"]}
{"id": "C34", "title": "Smoothed conditions", "statement": "Degrees of truth are always within [0,1], respect the boolean connectives, and when every elementary condition is outside its smoothing band the smoothed evaluation equals the sharp evaluation.", "quantifier": "for all scripts, scenarios and smoothing widths", "why_tests_cant": "Holds for every nesting and every real value.", "anchors": ["dal/script/visitor/fuzzy.hpp"]}
{"id": "C35", "title": "Event grouping", "statement": "Events given in any order are executed in date order, events on the same date run in the order supplied, every event is executed exactly once, and events before the evaluation date are treated as past.", "quantifier": "for every list of dated events and every evaluation date", "why_tests_cant": "Permutation property over all lists.", "anchors": ["dal/script/event.cpp: ScriptProduct_::ParseEvents"]}
{"id": "C36", "title": "Work queue", "statement": "Across any interleaving of producers and consumers each pushed item is popped at most once, items come out in the order they were pushed, nothing is popped that was not pushed, and after an interrupt every waiting consumer returns.", "quantifier": "for every number of threads and every interleaving", "why_tests_cant": "Schedule-dependent.", "anchors": ["dal/concurrency/concurrentqueue.hpp"]}
{"id": "C37", "title": "Thread pool runs each task exactly once", "statement": "Every task spawned on an active pool is run at most once, and, when a thread actively waits for a task's completion, the wait ends for every schedule in which workers keep running, even if tasks are run by the waiting thread itself.", "quantifier": "for every number of workers, tasks and every interleaving", "why_tests_cant": "Schedule-dependent; deadlock and loss show only in rare interleavings.", "anchors": ["dal/concurrency/threadpool.cpp", "dal/concurrency/threadpool.hpp"]}
{"id": "C38", "title": "Monte Carlo batching", "statement": "The batches handed to the pool cover every path index exactly once, in order, each within the batch size, and the number of batches never exceeds the storage reserved for their results; the aggregate equals the sum over all paths irrespective of which thread ran which batch.", "quantifier": "for every number of paths, threads and every assignment of batches to threads", "why_tests_cant": "Boundary sizes; reserved capacity decides memory safety.", "anchors": ["dal/script/simulation.hpp: MCSimulation"]}
{"id": "C39", "title": "Uniform deviates lie strictly inside (0,1)", "statement": "Every uniform number drawn from either pseudo-random generator, from any valid seed and after any number of draws, is strictly between 0 and 1, and integer states never overflow.", "quantifier": "for every seed and every number of draws", "why_tests_cant": "Unbounded sequences; a single 0 or 1 gives an infinite normal deviate.", "anchors": ["dal/math/random/pseudorandom.cpp: ShuffledIRN_, MRG32k32a_"]}
{"id": "C40", "title": "Jumping ahead in the random stream", "statement": "SkipTo(n) puts the generator in the state reached by drawing n vectors from the start.", "quantifier": "for every n and dimension", "why_tests_cant": "Matrix powering for arbitrary n.", "anchors": ["dal/math/random/pseudorandom.cpp: SkipTo"]}
{"id": "C41", "title": "Brownian bridge preserves the law", "statement": "The bridge transform visits every time step exactly once, refers only to steps already built, and preserves the sum of squares of its inputs (it is an orthogonal map), so independent standard normals stay so.", "quantifier": "for every number of steps and every input vector", "why_tests_cant": "Index construction over arbitrary sizes.", "anchors": ["dal/math/random/brownianbridge.cpp"]}
{"id": "C42", "title": "Tape storage", "statement": "Elements recorded on the tape stay at a fixed address with their contents until rewound; rewinding to the mark discards exactly the elements recorded after the mark; iteration visits exactly the recorded elements in order.", "quantifier": "for every sequence of record/mark/rewind operations", "why_tests_cant": "Block boundaries: errors only when a block fills exactly.", "anchors": ["dal/math/aad/blocklist.hpp", "dal/math/aad/tape.cpp"]}
{"id": "C43", "title": "Adjoint propagation computes the gradient", "statement": "After propagation, the adjoint of each input equals the partial derivative of the result with respect to that input, and repeated propagation to the mark accumulates sums of gradients.", "quantifier": "for every computation graph and every input point", "why_tests_cant": "Chain rule over arbitrary graphs with shared sub-expressions.", "anchors": ["dal/math/aad/expr.hpp", "dal/math/aad/node.hpp", "dal/math/aad/aad.hpp"]}
{"id": "C44", "title": "Growable stack is LIFO", "statement": "Pushing and popping on the growable stack behaves like a LIFO list at every size, including across growth.", "quantifier": "for every sequence of operations", "why_tests_cant": "Growth boundary and pop ordering.", "anchors": ["dal/math/stacks.hpp"]}
{"id": "C45", "title": "Tridiagonal solve inverts multiplication", "statement": "Solving with a decomposed tridiagonal matrix and multiplying back returns the right-hand side (left and right variants), for every size.", "quantifier": "for every n, every tridiagonal matrix whose pivots are non-zero and every right-hand side", "why_tests_cant": "Recurrence over arbitrary n and coefficients; left/right mix-ups cancel on symmetric examples.", "anchors": ["dal/math/matrix/banded.cpp: TriMultiply, TridagBetaInverse, TriSolve, TriDecomp_"]}
{"id": "C46", "title": "Banded symmetric decomposition", "statement": "Decomposing a symmetric positive definite banded matrix succeeds and the decomposition's solve inverts its multiply, without reading outside the stored band.", "quantifier": "for every n and band width", "why_tests_cant": "Out-of-range indices occur only for particular sizes.", "anchors": ["dal/math/matrix/banded.cpp: BandedCholesky_, BandedLSolve, BandedLTransposeSolve, Banded_::IsSymmetric"]}
{"id": "C47", "title": "Cholesky solve inverts multiply", "statement": "For the decomposition of a positive definite matrix, multiply after solve is the identity, and correlated samples have the decomposed matrix as covariance operator.", "quantifier": "for every n and every positive definite matrix", "why_tests_cant": "Index-order dependent in-place algorithm over arbitrary n.", "anchors": ["dal/math/matrix/cholesky.cpp"]}
{"id": "C48", "title": "Linear interpolation", "statement": "The interpolant reproduces the data at the nodes, never leaves the range of the two neighbouring node values, is monotone where the data are, and is flat outside the nodes.", "quantifier": "for every node set accepted by the constructor and every abscissa", "why_tests_cant": "Binary search edge cases and tolerance handling.", "anchors": ["dal/math/interp/interp.cpp", "dal/math/interp/interp.hpp: InterpLinearImplX"]}
{"id": "C49", "title": "Cubic spline", "statement": "The spline reproduces the data at the nodes, has continuous value, slope and curvature at every interior node and satisfies the requested boundary conditions.", "quantifier": "for every strictly increasing node set, data and boundary condition", "why_tests_cant": "The construction solves a recurrence of arbitrary length.", "anchors": ["dal/math/interp/interpcubic.cpp"]}
{"id": "C50", "title": "Smoothing of data", "statement": "Smoothed values solve the penalised least-squares problem that couples each pair of neighbouring points; with zero penalty the data are unchanged, constant data are unchanged for any penalty.", "quantifier": "for every data set, weights and penalty", "why_tests_cant": "Index alignment of the couplings.", "anchors": ["dal/math/smooth.cpp: SmoothedVals"]}
{"id": "C51", "title": "Bracketed root search", "statement": "At every step of the search the current interval still brackets a sign change, is contained in the previous one, and for a continuous function contains a root.", "quantifier": "for every function and every number of steps", "why_tests_cant": "Adversarial function values; infinitely many step sequences.", "anchors": ["dal/math/rootfind.cpp: BracketedBrent_, Brent_"]}
{"id": "C52", "title": "N-dimensional arrays", "statement": "Distinct valid index tuples address distinct elements inside the storage, and resizing keeps every element that is valid in both shapes.", "quantifier": "for every rank, shape and index", "why_tests_cant": "Arbitrary rank.", "anchors": ["dal/math/ndarray.cpp", "dal/math/ndarray.hpp"]}
{"id": "C53", "title": "Conjugate gradient returns only solutions", "statement": "When the iterative solver returns normally, the returned vector satisfies the linear system within the requested tolerance; solving with an exact initial guess returns it.", "quantifier": "for every matrix, right-hand side, preconditioner and iteration count", "why_tests_cant": "Loop invariant over any number of iterations.", "anchors": ["dal/math/matrix/bcg.cpp: CGSolve, BCGSolve"]}
{"id": "C54", "title": "Report addressing", "statement": "Distinct valid addresses in a report denote distinct cells; writing one cell changes no other; extending along the first axis keeps all existing values; reported axis sizes are the sizes given.", "quantifier": "for every set of axes and every sequence of writes", "why_tests_cant": "Arbitrary number of axes and growth.", "anchors": ["dal/risk/report.cpp"]}
{"id": "C55", "title": "Discount curves compose", "statement": "Discount factors are positive, equal one for an empty period and compose: DF(a,b)*DF(b,c) = DF(a,c), with or without a base curve; the integral of a piecewise constant or linear function accumulates its daily values.", "quantifier": "for every curve and every triple of dates", "why_tests_cant": "Piecewise case analysis around knots.", "anchors": ["dal/curve/piecewiseconstant.cpp", "dal/curve/piecewiselinear.cpp", "dal/curve/ycimp.cpp: DiscountPWLF_"]}
{"id": "C56", "title": "Merging underlyings", "statement": "Merging the requirements of several trades is commutative, associative and idempotent and keeps for each currency, index and credit name the latest date.", "quantifier": "for all collections of requirements", "why_tests_cant": "Order independence over all permutations.", "anchors": ["dal/protocol/underlying.cpp"]}
{"id": "C57", "title": "Matrix format language", "statement": "Every valid layout expression writes each cell inside the output, transposing twice or inverting twice is the identity, and the output dimensions are those declared.", "quantifier": "for all layout expressions and argument tables", "why_tests_cant": "Recursive layouts.", "anchors": ["dal/math/matrix/matrixutils.cpp: Format, WriterView_, Writer_"]}
{"id": "C58", "title": "Matrix containers", "statement": "Resizing a matrix keeps every element valid in both shapes; transposing twice gives the matrix back; products with aliased result arguments equal products without aliasing.", "quantifier": "for every shape", "why_tests_cant": "Storage re-layout over arbitrary shapes.", "anchors": ["dal/math/matrix/matrixs.hpp: Matrix_::Resize", "dal/math/matrix/matrixarithmetic.cpp", "dal/math/matrix/matrixutils.hpp"]}
{"id": "C59", "title": "Option price relations", "statement": "For Black and Bachelier prices, call minus put equals forward minus strike, straddle equals call plus put, and payouts satisfy the same relations.", "quantifier": "for all forwards, strikes and volatilities", "why_tests_cant": "Real-valued inputs including degenerate volatility and sign changes.", "anchors": ["dal/math/distribution/black.hpp", "dal/protocol/optiontype.hpp"]}
{"id": "C60", "title": "Finite-difference operators and rollback", "statement": "The first and second derivative operators are exact for quadratic functions on any strictly increasing grid; a rollback step with zero rates preserves constants and the explicit/implicit combination solves the theta-scheme equations.", "quantifier": "for every grid and every theta", "why_tests_cant": "Arbitrary non-uniform grids.", "anchors": ["dal/math/pde/finitedifference.cpp", "dal/math/pde/fd1d.cpp", "dal/math/pde/meshers"]}
{"id": "C61", "title": "Index names round-trip", "statement": "Parsing the name of an equity or fx index gives an index with the same name.", "quantifier": "for all equity names, currencies and delivery specifications", "why_tests_cant": "Arbitrary names.", "anchors": ["dal/indice/index/equity.cpp", "dal/indice/parser/equity.cpp", "dal/indice/index/fx.cpp", "dal/indice/parser/fx.cpp"]}
{"id": "C62", "title": "Historical index paths", "statement": "Expectations respect the collar, range probabilities are in [0,1], equal 1 inside the range and 0 beyond the ramp, and are monotone in the distance to the range.", "quantifier": "for all fixings, ranges and ramp widths", "why_tests_cant": "Real-valued case analysis including zero ramp.", "anchors": ["dal/indice/indexpath.cpp"]}
{"id": "C63", "title": "Simulation time line", "statement": "The model's time line contains every product date and today, is strictly increasing, has no gap above the maximum step, and each product date is filled exactly once per path.", "quantifier": "for every product time line and step limits", "why_tests_cant": "Insertion of extra points at arbitrary spacing.", "anchors": ["dal/model/utilities.hpp: FillData", "dal/model/dupire.hpp", "dal/model/blackscholes.hpp"]}
{"id": "C64", "title": "Traded rates", "statement": "Looking up a rate by its own period and clearing house returns the same rate (except futures), and unsupported combinations are rejected.", "quantifier": "for all traded rates, periods and clearers", "why_tests_cant": "Exhaustive table correspondence.", "anchors": ["dal/protocol/couponrate.cpp"]}
{"id": "C65", "title": "Volatility/correlation split", "statement": "Splitting a covariance matrix into volatilities and correlations reproduces the covariance and has unit diagonal.", "quantifier": "for every covariance matrix with non-negligible variances", "why_tests_cant": "In-place row/column scaling over arbitrary n.", "anchors": ["dal/math/matrix/matrixarithmetic.cpp: Vols"]}
{"id": "C66", "title": "Futures month codes", "statement": "The futures month letters F G H J K M N Q U V X Z are read as January to December in that order, and every other character is rejected.", "quantifier": "for every character", "why_tests_cant": "The whole table must be right and every other byte refused.", "anchors": ["dal/time/dateutils.cpp: Date::MonthFromFutureCode"]}
{"id": "C67", "title": "Enumerated types as text", "statement": "For every enumerated type, printing a value and reading the text gives the value back, a text names a value exactly if it is one of the declared aliases up to case, blanks, tabs and underscores, the list of values is complete, and registering extensions never changes the meaning of a text already recognised.", "quantifier": "all enumerated types, values and texts; all sequences of registrations", "why_tests_cant": "Texts are unbounded and vary in case and filling; registrations can be made in any order and be refused half-way.", "anchors": ["dal/auto/MG_DayBasis_enum.inc", "dal/auto/MG_TradedRate_enum.inc", "dal/string/strings.cpp:String::Equivalent"]}
{"id": "C68", "title": "Reported greeks are derivatives", "statement": "The delta and vega reported for Black and Bachelier options are the derivatives of the corresponding price by the forward and by the volatility.", "quantifier": "all forwards, strikes, volatilities and option types", "why_tests_cant": "A derivative is a limit; tests compare finite differences at a few points with tolerances.", "anchors": ["dal/math/distribution/black.cpp:BlackGreeks", "dal/math/distribution/black.cpp:BachelierGreeks", "dal/math/distribution/black.hpp:BlackOpt"]}
{"id": "C69", "title": "Coordinate maps", "statement": "A coordinate map and its inverse undo each other, the derivatives it reports are its derivatives, and its slope grows from one at the origin to the requested range at the requested width.", "quantifier": "for all maps the factory accepts and all points", "why_tests_cant": "Tests compare a few points; the claim is about every point and every parameter.", "anchors": ["dal/math/pde/pde.cpp"]}
{"id": "C70", "title": "Tenors", "statement": "Reading a tenor text gives the increments of its parts in their order; stepping by calendar days, weeks, months, years or business days moves by exactly that many in the given direction, and with holidays ends on a business day.", "quantifier": "for all texts, counts, units, holidays, directions and dates", "why_tests_cant": "Tests try a handful of tenors from a handful of dates.", "anchors": ["dal/time/dateincrement.cpp", "dal/time/periodlength.cpp"]}
{"id": "C71", "title": "Calendars named by text", "statement": "A text makes a calendar exactly when each of its words names a registered centre up to case; the calendar has exactly the holidays and working weekends of those centres, compares equal to another exactly when both name the same centres, is rebuilt from its own name, and is counted correctly, whatever combinations were cached before.", "quantifier": "for all registries, texts, orders, repetitions and cases of names, and all histories of registrations, calendars and counters", "why_tests_cant": "Tests build one or two calendars with a fresh cache; a wrong cache key or a stale combination shows only after particular histories.", "anchors": ["dal/time/holidays.cpp", "dal/time/holidaydata.cpp"]}
{"id": "C72", "title": "Schedules of a script", "statement": "The parameters of a schedule may come in any order and case, each setting what it names; the periods returned are consecutive gaps of one strictly increasing list of adjusted dates, fixed at their end or their beginning.", "quantifier": "for all token lists, parameters, calendars and tenors", "why_tests_cant": "Tests write the parameters in one order with FIXING at the end.", "anchors": ["dal/script/event/schedule.cpp", "dal/time/schedules.cpp"]}
{"id": "C73", "title": "Diagonal and triangular decompositions", "statement": "Solving with a diagonal or lower triangular matrix, from either side and also in place, gives the vector whose product with the matrix is the right-hand side, or fails exactly for a diagonal entry near zero; multiplying and solving undo each other; correlating scales by the square roots of the variances.", "quantifier": "for all sizes, matrices, vectors, destinations and aliasing", "why_tests_cant": "Tests multiply and solve one small matrix, seldom in place, and never compare the two sides.", "anchors": ["dal/math/matrix/decompositionsmisc.cpp", "dal/math/matrix/decompositions.cpp"]}
{"id": "C74", "title": "Built-in calendars and facts about currencies", "statement": "The built-in tables are well-formed calendars; initialising registers exactly the two Chinese centres, once; the interbank market works whenever the exchange does and besides only on its working weekends; a fact about a currency is what was last written for it, else the default, else an exception; starting the library gives every currency its fixing days and calendar.", "quantifier": "for all dates, prior registries, currencies and histories of facts", "why_tests_cant": "Tests look up a few holidays of one year after a successful start.", "anchors": ["dal/time/calendars/init.cpp", "dal/time/calendars/china.hpp", "dal/currency/currencydata.cpp", "dal/currency/init.cpp", "dal/platform/initall.cpp", "dal/protocol/conventions.cpp"]}
{"id": "C75", "title": "Underdetermined search and approximation", "statement": "A search only answers with a point where every function value is within its tolerance, always ends within its limits of evaluations and gradients, and says so only when they are used up; each step solves the linearised system with the smallest change in the norm of the weights, so for an affine function the answer is the nearest zero; an approximation makes the weighted misfit least.", "quantifier": "for all functions, tolerances, weights, guesses, solvers and controls", "why_tests_cant": "Tests run the search on one or two curves that converge; they never exhaust a limit or meet a step exactly at the backtracking tolerance.", "anchors": ["dal/math/optimization/underdetermined.cpp", "dal/math/optimization/underdetermined.hpp", "dal/math/matrix/sparse.cpp"]}
{"id": "C76", "title": "Auditors and bags", "statement": "An auditor remembers, per key in any spelling, all values it was told while reading, or only the last in the exclusive mode, and finds them exactly when it shows; auditing a value tells it to every auditor of the environment; recalling gives the one object remembered, nothing, or an exception for conflicting ones; a bag is read back as it was written.", "quantifier": "for all histories of notices and modes, environments, keys, values and casts", "why_tests_cant": "There is one way to use an auditor in a test; histories that switch modes, nested auditors and conflicting values are not tried.", "anchors": ["dal/storage/audit.cpp", "dal/storage/audit.hpp", "dal/storage/bag.cpp", "dal/utilities/maps.hpp"]}
{"id": "C77", "title": "Dupire and Black–Scholes paths", "statement": "A path of a Dupire model with one volatility is the Black–Scholes path; at a node a step uses the volatility of the node; the mean of the spot grows at the rate less the repo; the derivatives carried by a path computed with numbers on the tape are those of the path; a scenario is filled with the spot, numeraire, discounts and forwards at its dates.", "quantifier": "for all parameters, volatility grids, time lines, Gaussian numbers, positions and smooth dependences of the parameters", "why_tests_cant": "Regression tests price flat volatilities and few dates; they cannot compare a derivative with the path for all grids, and Monte Carlo noise hides small errors.", "anchors": ["dal/model/dupire.hpp", "dal/model/blackscholes.hpp", "dal/math/aad/sample.hpp", "dal/math/interp/interp.hpp"]}
{"id": "C78", "title": "Parameters, clones and results of simulations", "statement": "The parameters of a model are in the order of its labels and point into it; a clone is independent of its source; a result under the name of a parameter is the risk of that parameter, the mean over all paths whatever the threads; the report has the mean value and every risk under its name.", "quantifier": "for all models, clones, writes, names, numbers of paths and threads and schedules", "why_tests_cant": "Tests clone one model and look up known distinct names; they do not write through every parameter, copy results or clash names.", "anchors": ["dal/model/blackscholes.hpp", "dal/model/dupire.hpp", "dal/model/factory.hpp", "dal/script/simulation.hpp", "public/src/value.cpp"]}
{"id": "C79", "title": "Calibration of local volatilities and Merton prices", "statement": "A calibrated matrix has a row per spot and a column per time, with the local volatility of the nearest spot within two and a half deviations; a risk view adds its bump at its node and nothing elsewhere, a fresh one nothing; the local volatility is that of the forward equation; the Merton price is the Poisson mixture of the prices for each number of jumps and the plain price without jumps.", "quantifier": "for all spots, times, prices, strikes, maturities, bumps, rates and jump parameters", "why_tests_cant": "Tests calibrate one surface on a wide grid with zero rates; empty ranges, other rates and large intensities are not tried.", "anchors": ["dal/model/dupire.hpp", "dal/model/ivs.hpp", "dal/math/analytics/vanilla.hpp"]}
{"id": "C80", "title": "Evaluation on stacks of fixed size", "statement": "Evaluating an expression on the evaluator's stack of 128 cells gives the value of the expression and leaves the stack as it was but for the result when the room its tree needs is there, and writes outside the stack exactly when it is not; conditions need one truth value however nested; events leave the stacks as they found them, so any number of events can be evaluated one after another, past ones included.", "quantifier": "for all expressions, conditions, statements, events and stack contents", "why_tests_cant": "Tests have expressions a few levels deep and few past payments; nothing in the code checks the size, so a test past it sees silent corruption.", "anchors": ["dal/script/visitor/evaluator.hpp", "dal/script/visitor/pastevaluator.hpp", "dal/math/stacks.hpp", "dal/script/event.cpp"]}
{"id": "C81", "title": "Inputs from Excel mean what the cells show", "statement": "A cell or an array of one cell is read as the number, integer (within 2e-14, in range), truth value, text or date it holds, and anything else is an error. A row or column is read as the cells before the first blank one. The block of an array that is read as a matrix is the smallest one with nothing visible in the row below and the column to the right, and reading always ends. A dictionary holds exactly the rows with a value before the first blank row. A missing argument is no value where the argument is optional.", "quantifier": "all cells, arrays of all sizes and contents", "why_tests_cant": "the space of arrays and blank patterns is unbounded; the growth of the block depends on every pattern of blanks", "anchors": ["public/excel/_excel.cpp", "public/excel/_excel.hpp"]}
{"id": "C82", "title": "Results to Excel are laid out side by side and can be read back", "statement": "ToXloper announces as many rows and columns as it has memory for; single values, vectors and columns of matrices stand side by side from the top, blank below; nothing is written outside. Numbers, truth values, texts, dates, vectors and matrices that were written are read back as they were.", "quantifier": "all results made of any number of values, vectors and matrices", "why_tests_cant": "unbounded combinations of sizes", "anchors": ["public/excel/_excel.cpp", "public/excel/_excel.hpp"]}
{"id": "C83", "title": "Vectors, containers and simple statistics", "statement": "Elementwise arithmetic of vectors of the same size combines elements of the same place; comparison is equality; XRange gives equally spaced points that start and end as asked; Unique leaves each element once in increasing order; IsMonotonic compares all pairs; zipped maps hold the values under their keys; AsInt and NearestInt give the nearest integer within range; normalized vectors have norm 1, centralized ones mean 0; covariance is the mean of products less the product of means, symmetric and unchanged by constants; correlations lie within [-1, 1] with the sign of the covariance.", "quantifier": "for all vectors, keys, values, orders and numbers", "why_tests_cant": "Laws over all vectors of all lengths, ties and ends of ranges; tests use a few short vectors", "anchors": ["dal/math/vectors.hpp", "dal/utilities/algorithms.hpp", "dal/utilities/maps.hpp", "dal/utilities/numerics.hpp", "dal/utilities/numerics.cpp"]}
{"id": "C84", "title": "Notes stand in messages exactly where their blocks do", "statement": "The message of an exception is its text, place and function followed by one line for each note of the blocks around the throw, outermost first, with values as they are at the throw; caught or not, leaving a block restores the stack of notes, and with the last note the vector is released. Reading the notes never touches a value that has ended.", "quantifier": "all nestings of blocks, variables, assignments, notes, throws and catches", "why_tests_cant": "unbounded nestings of blocks and exceptions; undefined reads need not show in a test", "anchors": ["dal/utilities/exceptions.hpp", "dal/utilities/exceptions.cpp"]}
{"id": "C85", "title": "Rate indices have the dates and names of what they are made of", "statement": "The start of a forward rate is a given date, or the spot date of the fixing date moved by the given days or tenor; the start and maturity of a discount factor are counted from the fixing date. Every index with dates has a name; the name determines kind, currency, rate, start and collateral; and the name can be parsed to the same index.", "quantifier": "all cells, currencies, rates, tenors, starts, maturities and fixings; for any business-day rules", "why_tests_cant": "unbounded texts and dates, pairs of indices", "anchors": ["dal/indice/index/ir.hpp", "dal/indice/index/ir.cpp"]}
{"id": "C86", "title": "The normal distribution function and its inverse", "statement": "NCDF, precise or by splines, is strictly increasing, continuous, between 0 and 1 and symmetric, and both agree relative to their size; InverseNCDF has a value on [0, 1] and throws elsewhere, is strictly increasing and symmetric, also across the seams of its three approximations; polishing brings it nearer.", "quantifier": "all real numbers", "why_tests_cant": "uncountably many arguments; monotonicity across seams and in the tails needs exact comparison of nearly equal numbers", "anchors": ["dal/math/specialfunctions.cpp"]}
{"id": "C87", "title": "The printed form of a script shows its trees", "statement": "Debugging a product prints its variables and, event by event, the text of every statement: each node alone on its line or followed by its arguments in brackets one step to the right, whatever was printed before; and the text determines the tree, with kinds, names, indices and numbers.", "quantifier": "all trees of all sizes and depths, all products", "why_tests_cant": "unbounded trees; injectivity is about pairs of trees", "anchors": ["dal/script/visitor/debugger.hpp", "dal/script/event.cpp"]}
{"id": "C88", "title": "Archives keep objects and their sharing", "statement": "Writing an object with everything it refers to and reading it again gives the same objects: as many as before, of the same classes and with the same values, and two handles lead to the same object afterwards if and only if they did before; each class is read by the reader registered for it, and distinct objects in a document are distinct in memory.", "quantifier": "all finite and infinite heaps without cycles, all classes with members that cannot be confused, all nestings and sharings; all sequences of registrations", "why_tests_cant": "graphs of unbounded size and depth; sharing is about all pairs of paths", "anchors": ["dal/storage/archive.hpp", "dal/storage/archive.cpp", "dal/storage/json.cpp: StoreRef, Known", "dal/storage/splat.cpp: StoreRef, Known", "dal/auto/MG_*_Read.inc", "dal/auto/MG_*_Write.inc"]}
{"id": "C89", "title": "Objects in files come back", "statement": "Lines written to a file are read back up to the first one of more than 2047 characters; a line of fields joined by commas is cut into these fields; an object written by SplatFile and read by UnSplatFile has the types, tags, names and contents it was written with", "quantifier": "all lists of lines, all lists of fields, all trees of named values and objects with plain texts, all number texts of the library that print and read integers and reject dates", "why_tests_cant": "the texts, sizes and numbers that do not survive are a thin set no example meets; the loss of a last empty column depends on the shape of the whole table", "anchors": ["dal/storage/splat.cpp: SplatFile, FileTable, SplitLine, AsCell, Extract*", "dal/utilities/file.cpp", "dal/math/cellutils.cpp: ToStringLines, CoerceToString"]}
{"id": "C90", "title": "Objects come back from JSON texts", "statement": "An object written by JSON::WriteString with everything it refers to and read by JSON::ReadString gives objects of the same classes, with the same values and the same sharing", "quantifier": "all acyclic object graphs of any classes with plain names, whose texts have no quotes, numbers have at most six decimals, dates are readable, and without truth values or vectors of integers; all depths", "why_tests_cant": "tests write one object of a class and compare a few members; sharing, nesting, separators and the values that are lost depend on the whole graph", "anchors": ["dal/storage/json.cpp: XDocStore_, View_, WriteString, ReadString", "dal/storage/archive.cpp: SetStorable, Extract", "dal/auto/MG_*_Write.inc and MG_*_Read.inc"]}
{"id": "C91", "title": "Past fixings are those recorded", "statement": "PastFixing gives the number recorded for an index name, up to case, and a time in the innermost access object of the environment, otherwise it throws or, when quiet, gives minus infinity; fixings made from vectors hold for every time its first number; fixings come back from their archives", "quantifier": "all environments, names, times, maps and vectors; JSON for times to the second and numbers of six decimals", "why_tests_cant": "environments nest arbitrarily, vectors repeat times in any order, and the quiet call without an access object is never made by tests", "anchors": ["dal/indice/index.cpp: Index::PastFixing", "dal/indice/index.hpp: FixingsAccess_, IndexKey_", "dal/indice/fixings.cpp", "dal/utilities/maps.hpp: ZipToMap"]}
{"id": "C92", "title": "Charts and matrices in sheets", "statement": "A chart's inputs, labels and functions are written to the next free columns of the data sheet and nowhere else, its range is exactly these cells when all functions have as many values as inputs, and the next chart begins behind it; matrices, vectors and texts fill one new sheet at the expected cells and nothing else; charts never share columns nor change the data of earlier ones, whatever was refused between", "quantifier": "all vectors, matrices, labels and names with a label for each function and row, all sequences of calls, refused ones included", "why_tests_cant": "the driver needs a running Excel, so no test exists; overlap depends on sequences of calls with exceptions between them", "anchors": ["dal/excel/exceldriverlite.cpp: ToSheetHorizontal, ToSheetVertical, CreateChart, AddMatrix, AddVector, PrintStringInExcel"]}
{"id": "C93", "title": "Kinds of cells, settings from dictionaries", "statement": "A cell converts to an integer, number, truth value, date or time exactly when it holds one, and the text of a cell converts back to it; controls of the underdetermined search are made from a dictionary exactly when the entries, with defaults for four of them, are of the right kinds and meet the conditions, they are the values of these entries, and they come back from their dictionary and from its text", "quantifier": "all cells, dictionaries and controls; texts for tolerances that survive as entries", "why_tests_cant": "the numbers refused or changed are at the end of the range of integers and beyond the sixth decimal; tests use defaults", "anchors": ["dal/math/cell.cpp", "dal/math/cellutils.cpp: ConvertString", "dal/utilities/dictionary.hpp: Extract", "dal/auto/MG_UnderdeterminedControls_object.inc"]}
{"id": "C94", "title": "Public interpolators accept what they declare and give back their data", "statement": "Through the public functions, a linear interpolator (one or two dimensions) is created exactly for strictly ascending abscissas and data of matching sizes, a spline exactly for at least three such points with at most two boundary orders in 1..3 and at most two values given only with orders; getting the values at the abscissas returns the data; getting values returns one per abscissa in order, on the broken line with flat ends for linear ones, and for splines either the values of one twice differentiable function meeting the first/last boundary condition, or an exception exactly when some abscissa is outside; a smoothed interpolator returns the data when the smoothing is zero or the data constant. (The declared conditions admit an empty set of points, for which getting a value is undefined, and two points for a spline, which throws; the first value is never smoothed.)", "quantifier": "all lists of abscissas and values, all boundary orders and values, all lists of queries", "why_tests_cant": "Tests use a few well-formed data sets; the claim concerns every list of arguments a sheet can pass, including empty and short ones, and all query points.", "anchors": ["public/excel/__interp.cpp:134-190", "public/src/interp.cpp:11-15", "public/auto/MG_Interp1_New_Cubic_public.inc:14-30", "public/auto/MG_Interp2_New_Linear_public.inc:14-26", "dal/math/interp/interpcubic.cpp:51-121", "dal/math/smooth.cpp:12-41"]}
{"id": "C95", "title": "Generators as objects give one sequence, cut into rows", "statement": "For every generator object that can be made from a name, a seed and a dimension there is one sequence of numbers strictly between 0 and 1 such that the matrices of uniform numbers asked for are its consecutive pieces, each followed by its mirror image, that asking in several calls gives the same rows as asking once, and that normal numbers come from the pieces that follow; an object is made exactly of the four names of kinds (ignoring case, spaces and underscores), non-negative dimensions and seeds that do not overflow; the clone of a fresh generator is that generator. (Not so: objects cannot be named freely, clones and stored objects start again and forget the precision, branches are all the same, calls are not functions of their arguments.)", "quantifier": "all names, seeds, dimensions, counts of paths and sequences of calls", "why_tests_cant": "Tests draw a few numbers from fixed seeds; the claim covers every seed, dimension and split of the calls, and the antithetic state that carries over between them.", "anchors": ["dal/math/random/pseudorandom.cpp:15-39", "dal/math/random/pseudorandom.cpp:67-86", "dal/math/random/pseudorandom.cpp:101-141", "dal/math/random/pseudorandom.cpp:239-255", "dal/math/random/pseudorandom.hpp:32-71", "public/src/random.hpp:14-53", "public/excel/__random.cpp:97-108", "dal/auto/MG_RNGType_enum.inc:31-62"]}
{"id": "C96", "title": "The table of a valuation, products from sheets", "statement": "The public valuation returns a table whose rows are in strictly increasing order of their keys ignoring case: one row PV with the aggregated value over the number of paths and, with sensitivities, one row for each parameter or constant with d_ before its name and its risk. A product made from a sheet is the same whether its dates are shown as dates or as whole serial numbers; other cells are kept in their places; fractions are refused; the description of a product is returned line by line.", "quantifier": "all lists of names and risks, numbers of paths, results of the simulation, sheets of cells and texts, dates", "why_tests_cant": "Tests value products with four differently named parameters and dates that are already dates; names that clash, sheets with serials in any position and tables of any length are not tried.", "anchors": ["public/src/value.cpp:14-46", "public/excel/__value.cpp:38-53", "public/excel/__script.cpp:40-58", "public/src/script.hpp:13-26", "dal/script/simulation.hpp:23-37", "dal/script/event.hpp:54-59"]}
{"id": "C97", "title": "Closed-form prices are means, and simulated scripts have those means", "statement": "BlackOpt and BachelierOpt are the means of the payoff when the spot at expiry is log-normal, respectively normal, around the forward. The mean over the Gaussian numbers of a Black-Scholes path (or of a Dupire path with one volatility) of an option payoff divided by the numeraire is the discounted BlackOpt at the forward, and a script that pays a call or put at each of its dates, taken from its text through parsing, indexing, time line, scenario and evaluation, has the sum of the discounted Black prices as its mean.", "quantifier": "for all forwards, strikes, deviations, types of options, model parameters, product dates, lengths of the time line and constants of the script", "why_tests_cant": "a test compares a Monte Carlo average with the closed form within sampling noise at a few parameters; equality of the exact mean needs integrals over all Gaussian numbers, and the sign condition of BachelierOpt is missed by positive forwards", "anchors": ["dal/math/distribution/black.hpp:13-50", "dal/model/blackscholes.hpp:91-146", "dal/model/dupire.hpp:121-165", "dal/script/parser.cpp:366-373", "dal/script/event.cpp:87-156", "dal/script/visitor/evaluator.hpp:107-255"]}
{"id": "C98", "title": "Implied volatilities", "statement": "The implied volatility found for a price gives that price back within the tolerance, or lies in a bracket of volatilities pricing below and above it whose ends differ by no more than the tolerance of places; the volatility of a Black price is recovered, and exactly when it is the guess; prices below the payout or above every price of the formula are refused; stepping through intermediate strikes keeps all this; the yearly volatility is that over the root of the maturity; the derivatives by parameters are those of the sensitivities, by name.", "quantifier": "All positive forwards and strikes, all types, prices, guesses, numbers of attempts and steps; for Bachelier all forwards and strikes; all lists of names.", "why_tests_cant": "Tests check a few prices; that whatever the search returns reprices, for all inputs, needs the invariant of the search and the monotonicity of the price in the volatility.", "anchors": ["dal/math/distribution/black.cpp:14-26", "dal/math/distribution/black.cpp:55-67", "dal/math/distribution/black.cpp:97-141", "dal/math/distribution/utils.cpp:11-20", "dal/math/analytics/vanilla.cpp:11-21"]}
{"id": "C99", "title": "Derivatives of scripts", "statement": "Running any script with AAD::Number_ gives in every variable the value that running it with doubles gives, and the derivative it carries is the derivative of that value with respect to any parameter on which spots, numeraires, constants and initial values depend, at every point where no comparison that is visited is decided by a tie which a small move breaks, and no operator that is visited is outside the domain of its derivative.", "quantifier": "for all scripts (expressions, conditions, statements, nested branches), all numbers of events, all samples, constants, initial values and directions", "why_tests_cant": "Derivatives are compared with bumps on a few products; a wrong derivative of one operator or a wrong branch shows only for scripts that use it, and bumps have errors that hide small mistakes.", "anchors": ["dal/script/visitor/evaluator.hpp:107-275", "dal/math/aad/expr.hpp:42-96", "dal/math/aad/expr.hpp:161-177", "dal/math/aad/expr.hpp:376-454"]}
{"id": "C100", "title": "Simulated sensitivities", "statement": "The mean over the Gaussian numbers of the derivative that a Black-Scholes path computes for a script paying calls or puts at its dates is the derivative of the sum of the discounted Black prices, in whatever way spot, rate, dividend, volatility and strike move together; in the single directions it is the discounted delta and vega of BlackGreeks. (For payoffs that jump this fails: for a digital option the mean derivative is zero though the price has a derivative.)", "quantifier": "for all dates, time lines, numbers of steps, parameters in the domain of the closed form, directions, calls and puts; all digitals", "why_tests_cant": "A simulation has statistical errors far above the size of the mistakes; no finite number of paths separates a biased sensitivity from noise, and a test compares at one set of parameters.", "anchors": ["dal/model/blackscholes.hpp:109-146", "dal/script/visitor/evaluator.hpp:107-275", "dal/math/distribution/black.cpp:28-53", "dal/script/simulation.hpp:1-200"]}
{"id": "C101", "title": "Derivatives of smoothed scripts", "statement": "The fuzzy evaluator run with AAD::Number_ carries in every variable the derivative of the value it computes with doubles, at every point where no edge of a band is hit. For a digital option on Black-Scholes paths the mean of the smoothed value is the discounted call spread over the band, the mean of the derivative is the derivative of that call spread, and both tend to the digital's price and derivative as the band narrows, up to EPSILON.", "quantifier": "for all scripts without negations, all widths, all nesting, all dependences of the market data on the parameter; all spots, rates, dividends, volatilities, strikes, dates, steps, bands and directions of derivative", "why_tests_cant": "tests compare single sensitivities with bumps at a few points and with sampling noise; the identity of means holds for all parameters and no sample can exhibit it", "anchors": ["dal/script/visitor/fuzzy.hpp:15-51", "dal/script/visitor/fuzzy.hpp:135-261", "dal/math/aad/expr.hpp:182-186", "dal/script/simulation.hpp:225-245"]}
{"id": "C102", "title": "Simulated means have no bias and the error of independent paths", "statement": "Given a stream of independent standard normal numbers behind the generator, the value that MCSimulation returns over the number of paths has the mean of the payoff of one path as its mean, for any number of paths, batches, threads and schedule, with doubles and on the tape, and its mean square error is the spread of the payoff over the number of paths, since paths use different numbers; for calls and puts under Black-Scholes the mean is the discounted Black price and the probability of an error of c or more is bounded explicitly; for sensitivities the mean is the derivative of the price.", "quantifier": "all numbers of paths below 2^31-1, threads, schedules, both pseudo-random generators, payoffs with a second moment, models, strikes and expiries", "why_tests_cant": "Statistical tests see one seed and a tolerance; that batches reuse numbers shows only as an error larger than expected, which any tolerance hides.", "anchors": ["dal/script/simulation.hpp:71-266", "dal/script/simulation.cpp:11-26", "dal/math/random/pseudorandom.cpp:86-86", "dal/math/random/pseudorandom.cpp:143-188"]}
{"id": "C103", "title": "The Brownian bridge does not change the law of a simulation", "statement": "Whatever the number of dimensions and whatever the vector held before, BrownianBridge_::FillNormal turns independent standard normal numbers into independent standard normal numbers. A simulation whose generator comes from CreateRNG with use_bb therefore has the same mean as one without it, for MRG32 and IRN, with doubles and on the tape, for any number of paths, tasks, threads and any schedule; the mean square error of one task and the bound on the probability of an error are unchanged as well; and an option of any type under Black-Scholes has the discounted Black price as its mean.", "quantifier": "all numbers of dimensions, payoffs integrable (square integrable for errors) over normal numbers, numbers of paths and threads, schedules of tasks, models and option types in the regular range", "why_tests_cant": "Tests compare a few simulated prices with and without the bridge within a tolerance; equality of laws is a statement about a measure on all paths.", "anchors": ["dal/math/random/brownianbridge.cpp:13-85", "dal/math/random/brownianbridge.hpp:12-45", "dal/script/simulation.cpp:11-25", "dal/script/simulation.hpp:71-157"]}
{"id": "C104", "title": "Compiled simulations with adjoints give the derivatives of the payoffs", "statement": "A compiled simulation with AAD::Number_ puts the parameters of the model and the constant variables on the tape, initializes the model, marks the tape, and for each path rewinds to the mark, generates the path, runs the compiled events and propagates the payoff to the mark; in the end it propagates from the mark to the start. Whenever the compiled product can be run on the paths, the sum reported is the sum of the payoffs, and each risk times the number of paths is the sum over the paths of the derivative of the payoff with respect to that input, exactly without the cutoff of small adjoints and up to a multiple of it otherwise. For calls and puts these derivatives have the derivatives of the discounted Black prices as means. This fails for constant variables (their risks are zero) and for payoffs that are copies of today's spot (the propagation leaves the tape).", "quantifier": "for all compiled programs, all products with dates after today that rise strictly, all parameters, constants, numbers and numbers of paths", "why_tests_cant": "A test compares a few risks with bumped prices within a tolerance on fixed seeds; it cannot show that every instruction records the right node, that rewinding never mixes paths, or that the risks of constants vanish for every program.", "anchors": ["dal/script/simulation.hpp:38-58", "dal/script/simulation.hpp:203-228", "dal/script/visitor/compiler.hpp:355-598", "dal/script/event.hpp:129-141", "dal/model/blackscholes.hpp:38-146", "dal/math/aad/expr.hpp:492-620"]}
{"id": "C105", "title": "Smoothed simulations with adjoints give the derivatives of the payoffs, constants included", "statement": "A simulation with AAD::Number_ that is not compiled evaluates the events of each path with the smoothed (fuzzy) evaluator on the tape. If the payoff is only assigned numbers made on the path, the simulation ends well whenever the smoothed script can be run with doubles; the sum is that of the runs with doubles, and each risk times the number of paths is the sum of the derivatives of the payoff with respect to that input, constant variables included, exactly without the cutoff of small adjoints and up to a multiple of it otherwise. Where the smoothed script has no tie at an edge these are the derivatives of the runs with doubles as functions of the input. Dealing the paths out to tasks does not change the result. For calls and puts the means of these derivatives, the strike included, are the derivatives of the discounted Black prices. A script that copies a constant variable to the payoff makes the propagation leave the tape.", "quantifier": "for all scripts, all products with dates after today that rise strictly, all parameters, constants, numbers, numbers of paths and partitions into tasks", "why_tests_cant": "Tests compare a few risks with bumped prices within a tolerance; they cannot show that every visit records the right node for every script, nested conditions and blends included, or that results do not depend on how paths are dealt out.", "anchors": ["dal/script/simulation.hpp:229-252", "dal/script/visitor/fuzzy.hpp:15-261", "dal/script/visitor/evaluator.hpp:81-275", "dal/script/event.hpp:118-127"]}
{"id": "C106", "title": "Valuations with sensitivities are unbiased, from the text of the script to the table", "statement": "ValueByMonteCarlo with adjoints prepares the product (indexing, nesting of conditions, domains, removal of constant conditions), simulates it with the smoothed evaluator in tasks on threads and returns a table. For every prepared product whose payoff is made on the path, the table has exactly one row PV, the mean of the payoffs over the paths of the run, and one row d_ followed by the name for each parameter of the model and each constant variable, in the order of the names; each such row is the mean of the derivatives of the payoffs, up to a multiple of the cutoff of small adjoints. It depends neither on the order of the tasks nor on the threads that run them. For the texts of calls and puts the rows are d_div, d_K, d_rate, d_spot, d_vol and PV, and without the cutoff the mean of PV over the noise is the sum of the discounted Black prices, and the mean of every other row its derivative with respect to that input.", "quantifier": "for all prepared products, payoffs, dates after the evaluation date that rise strictly, markets, strikes, numbers of paths, threads, orders of the tasks and streams of numbers", "why_tests_cant": "Tests compare one simulated table with bumped or analytic values within a statistical tolerance on one machine; they cannot show that all rows are unbiased for every market and strike, or independent of the schedule.", "anchors": ["public/src/value.cpp:22-46", "dal/script/event.cpp:86-156", "dal/script/simulation.hpp:160-267", "dal/script/event.hpp:60-80"]}
{"id": "C107", "title": "Rolled-back prices converge to Black's", "statement": "Rolling a payoff back with the finite-difference solver, holding the edges at the discounted values: when the variance dominates the drift over a spacing and the explicit part is within its limit, the loop is defined and stays within the start and edge errors plus the sum of defects of whatever it is compared with; against a smooth solution of the pricing equation the error is first order in time (second order for theta one half) and second order in the spacing but for unevenness; and for calls, puts and straddles, for every precision all fine enough grids with short enough steps give values within it of the discounted Black price, at every point of the grid. With the edges of the example program the distance from a call's price is moreover bounded explicitly by the lowest spot and the inverse of the highest.", "quantifier": "all increasing grids between positive spots, all numbers of steps, all thetas in [0,1] within the explicit limit, all non-negative rates, dividends, positive volatilities, strikes and expiries, every precision", "why_tests_cant": "A test compares a few prices at a few grid sizes with a tolerance chosen to pass; an order of convergence over all grids, and closeness at every grid point for every precision, cannot be sampled.", "anchors": ["examples/european_fd/european_fd.cpp:48-68", "dal/math/pde/fd1d.cpp:14-50", "dal/math/pde/finitedifference.cpp:11-48", "dal/math/distribution/black.hpp:13-50"]}
{"id": "C108", "title": "Accumulating rows into a banded triangle", "statement": "Add(v, offset) takes v into the triangle L: L'L grows by v v'. A vector whose row is still free is taken in exactly; rows beyond its last entry and the sizes never change; a call within the sizes throws nothing while every row is zero or has a diagonal entry; after vectors at offsets counted from zero the systems can be solved. (The code violates the accumulation as soon as a row is occupied, and the solvability always.)", "quantifier": "all sizes, bands, vectors, offsets and sequences of calls, every ordered field with a square root", "why_tests_cant": "The only test makes two calls and checks nothing; the sum of outer products over all sequences of vectors cannot be sampled.", "anchors": ["dal/math/matrix/banded.cpp:339-391", "dal/math/matrix/banded.hpp:49-58"]}
{"id": "C109", "title": "Sensitivities of several results at once", "statement": "In the multi-result mode of the tape one sweep gives, in every input and component by component, the sensitivities of all results; without the cutoff each component is exactly what propagating that result alone gives; earlier adjoints do not matter after ResetAdjoints; the mode lasts as long as the object that asked for it. (The code violates: PropagateToStart/PropagateToMark in this mode give no sensitivities; numbers recorded before the switch lead to undefined behaviour; with the cutoff the components depend on each other; nested modes are not restored.)", "quantifier": "all programs at regular points, all numbers of results, all results and all adjoints before", "why_tests_cant": "Tests use one number of results and a few programs with one sweep each; equality with the derivatives for all programs cannot be sampled.", "anchors": ["dal/math/aad/aad.hpp:18-29", "dal/math/aad/tape.hpp:39-51", "dal/math/aad/tape.cpp:12-19", "dal/math/aad/node.hpp:41-59", "dal/math/aad/expr.hpp:487-569"]}
{"id": "C110", "title": "Barrier options written as scripts are barrier options", "statement": "For the texts of the up-and-out call of examples/uoc (and the same with 'hit' for a knock-in option), any barrier, strike and band width, and any number of observation dates: the texts are parsed and pre-processed for exact and for smoothed evaluation; on every path the exact value is max(S_T - K, 0)/numeraire if the barrier has not (has) been reached on an observation date, else 0; the smoothed value is the product of the parts the dates leave times that payoff, lies between the exact values with the barrier moved by half the band, and equals the exact value on paths that stay out of the band; knock-in plus knock-out is the call on every path, exactly and smoothed, and their Black-Scholes means add up to the discounted Black price; a call knocked out at or below its strike is worthless; the table of a valuation with sensitivities has the smoothed mean as PV and rows for spot, vol, rate, div, BARRIER and STRIKE. That testing the barrier twice on one date changes nothing is violated by the smoothed evaluation.", "quantifier": "all barriers, strikes, widths, numbers of dates, paths, Black-Scholes parameters, numbers of paths and threads", "why_tests_cant": "A simulation gives an estimate for one product; equality on every path, parity of means and the effect of a doubled test hidden in a band of width 0.1 do not show in it", "anchors": ["examples/uoc/uoc.cpp:45-60", "dal/script/event.cpp:20-85", "dal/script/event/schedule.cpp:60-75", "dal/script/visitor/fuzzy.hpp:15-33"]}
{"id": "C111", "title": "Products with events in the past start from what the past has left", "statement": "Events dated before the evaluation date are evaluated once, without payments, and give the variables their values at the start of every path; so the value of a product on a path is what its parsed events give when they are run by name in order, the past ones at the spots that were fixed and without payments, the others on the path. Without past events the product is valued as before; expired options make no difference to the table; a barrier option that has begun is worth the barrier option over the fixed spots and those of the path. The code satisfies this for past events that do not look at the spot; for others it takes 30 for every past spot, and with more than 127 past option payments the valuation is undefined.", "quantifier": "all products whose expressions are defined on the path, all splits into past and future events, all paths, models, numbers of paths and threads", "why_tests_cant": "The value depends on when the product is valued; a test would have to hold every product at every stage of its life, with histories, and agreement of exact values with a run by name goes through six passes over the trees", "anchors": ["dal/script/event.cpp:74-84", "dal/script/event.cpp:103-146", "dal/script/visitor/pastevaluator.hpp:14-34", "dal/script/event.hpp:60-81", "dal/script/simulation.hpp:60-140"]}
{"id": "C112", "title": "DCF in scripts is the year fraction between two dates", "statement": "In a script, DCF(basis, start, end) has the value of the day-count fraction of the named basis between the two dates written yyyy-mm-dd, for every accepted spelling of the basis and every amount of blank space; a name that is no day basis, a text that is no date, a missing field or a further field is refused with an exception.", "quantifier": "all names of day bases in any case and with blanks and underscores, all pairs of dates, all texts around", "why_tests_cant": "tests use one basis and dates of the near future; they never leave out a field, and a missing field reads past the end of the tokens only for some layouts of the text", "anchors": ["dal/script/parser.cpp:254-292", "dal/time/daybasis.cpp:66-84", "dal/time/dateutils.cpp:22-39"]}
{"id": "C113", "title": "Scripts without awkward divisions are always processed, and are worth what they say", "statement": "A parsed script that calls no LOG, gives MAX and MIN two arguments, divides only by written numbers and declared constants other than zero, and assigns to no constant is accepted by every processing step of a product (variable indexing, IF processing, domain analysis, removal of decided conditions), keeps its number of events, and on every path with positive numeraires its exact evaluation yields the payoff variable's value when the parsed statements are run in order by name.", "quantifier": "every such script with any number of events, nesting and variables; fuzzy or not; every path", "why_tests_cant": "A crash or a wrong decision of the domain analysis depends on the combination of intervals reachable through assignments over many dates; tests try a few scripts.", "anchors": ["dal/script/event.cpp:86-146", "dal/script/visitor/domainproc.hpp:20-330", "dal/script/visitor/domain.hpp:30-900", "dal/script/visitor/varindexer.hpp:15-60", "dal/script/visitor/evaluator.hpp:30-260"]}
{"id": "C114", "title": "The snowball script is the autocallable note it describes", "statement": "The script of the snowball example, for any start, any dates of observation, any maturity, levels, coupon and strike, is parsed and processed without error, and its exact value on every path is: coupon times years since the start, discounted, at the first date with a spot above the upper level; otherwise at maturity spot minus strike if the spot was ever below the lower level, and the coupon for the whole time if not. Smoothed, each date mixes the two outcomes by the degree to which the spot is above or below its level; the result lies between the least and the greatest payment, equals the exact value on paths that stay half a width away from the levels, and its mean over the simulated paths is what the table of a valuation shows.", "quantifier": "all lists of observation dates, all readable dates, all levels/coupons/strikes, all paths with positive numeraires", "why_tests_cant": "The state runs through any number of dates and through text, parser, DCF, domain analysis and evaluator; an error at one boundary moves prices slightly, which the example only prints.", "anchors": ["examples/snowball/snowball.cpp:43-70", "dal/script/parser.cpp:100-330", "dal/script/event.cpp:86-146", "dal/script/visitor/evaluator.hpp:30-260", "dal/script/visitor/fuzzy.hpp:30-260"]}
{"id": "C115", "title": "Macros and placeholders in event texts", "statement": "In the text of an event every occurrence of a macro's name, in any case, is replaced by the macro's text, from left to right and without looking into what was inserted; all else stays as it is. In the rows of a schedule PeriodBegin and PeriodEnd become the dates of the period. Pieces of the text between characters that occur in no name are treated independently, and a piece that is a macro's name becomes the macro's text. Applied to the tables of the snowball and barrier examples this gives exactly one event per date with the expected text, nothing in the past, and a product worth on every path what the note, or the barrier option, is worth.", "quantifier": "all names, replacements and texts; all lists of macros; all numbers, schedules with increasing dates and paths with positive numeraires", "why_tests_cant": "Tests use a handful of names; whether a name is hidden inside another word or another macro's text depends on the whole table", "anchors": ["dal/script/event.cpp:14-85", "examples/snowball/snowball.cpp:45-69", "examples/uoc/uoc.cpp:49-58"]}
{"id": "C116", "title": "Valuations with sensitivities on the first date of a product", "statement": "If the first event of a script is on the evaluation date, the payoff variable is only ever assigned numbers made on the path, and the script can be run on each path, then the simulation with adjoints ends well for every number of paths and every way of dealing them out to tasks and threads: the value is the mean of the payoffs, each risk is up to the cutoff of the tape the mean of the derivatives of the payoff, and each path takes as many normal numbers as there are dates after today. The barrier option and the snowball of the examples, given as rows, have such a table at their start. The same holds for a product that has begun and has an event today. If no path has a tie at an edge, the risks without the cutoff are the derivatives of the mean payoff with respect to the parameters and constants.", "quantifier": "all scripts, models with a positive spot, dates, numbers of paths, tasks, threads and normal numbers", "why_tests_cant": "tests compare one number of one product on one machine with a recorded number, and no test values a script with sensitivities whose payoff is assigned today's spot", "anchors": ["dal/model/blackscholes.hpp:126-146", "dal/script/simulation.hpp:190-260", "examples/snowball/snowball.cpp:22-75", "examples/uoc/uoc.cpp:24-60"]}
{"id": "C117", "title": "The European example prints its benchmark and its derivatives", "statement": "Given the two rows of examples/european_mc (STRIKE and the maturity with 'call pays MAX(spot() - STRIKE, 0.0)'), the evaluation date before maturity and PreProcess with or without fuzzy, ScriptProduct_ holds one future event at the maturity, no past event and the constant STRIKE with the number of the row; MCSimulation with sensitivities ends well for any number of paths, tasks and threads, aggregated_/num_paths is the mean over the paths of max(S_T - STRIKE, 0) exp(-rate t) with S_T = spot exp((rate - div - vol^2/2) t + vol sqrt(t) Z), and there are five risks, in the order spot, vol, rate, div, STRIKE, each within the propagation cutoff of the mean of the derivatives of the payoff. Over independent normal numbers the mean of the value is exactly exp(-rate t) BlackOpt(exp((rate - div) t) spot, sqrt(t) vol, STRIKE, CALL), and without the cutoff the mean of each risk is the derivative of this number with respect to its input.", "quantifier": "all evaluation dates before maturity, strikes, markets with positive spot and non-negligible volatility, numbers of paths, tasks, threads and orders of execution, fuzzy or not", "why_tests_cant": "A run prints one noisy estimate beside the benchmark; that the difference is only noise, for every market and every sensitivity, cannot be seen from samples.", "anchors": ["examples/european_mc/euorpean_mc.cpp:23-89", "dal/script/event.cpp:30-90", "dal/script/event.cpp:133-153", "dal/script/simulation.hpp:150-270", "dal/math/distribution/black.cpp:10-40"]}
{"id": "C118", "title": "Compiled simulations with adjoints are right for products with an event today", "statement": "Given a compiled product whose first event may be at the evaluation date (spot positive) and whose payoff variable is, in that case, written by PAYS and never by an assignment, MCSimulation<Number_> with compiled true ends well whenever the compiled product can be run on each path: the sum of the payoffs is that of the runs with doubles, and each risk times the number of paths is the sum of the pathwise derivatives with respect to that input, up to a multiple of the propagation cutoff (exactly, without cutoff). The risks of constant variables are zero up to the cutoff. For a script processed by PreProcess and Compile, without ELSE, the value on each path is that of the interpreted script; for the barrier rows of examples/uoc_compiled the sum of the payoffs is that of max(S_T - STRIKE, 0)/numeraire over the paths on which no observed spot after the first date reaches BARRIER (reaches it, for knock-in), whatever smoothing is passed, and the risks behind those of the model, printed as dP/dK, are zero up to the cutoff.", "quantifier": "all compiled products and scripts meeting the conditions, all Black-Scholes parameters, rising dates with or without today, all lists of paths, all cutoffs", "why_tests_cant": "Tests compare a few products whose dates are all later; whether the payoff of a product with an event today lies above the mark of the tape depends on the instructions that write it, over all programs", "anchors": ["dal/script/simulation.hpp:160-265", "dal/script/event.cpp:181-208", "dal/script/visitor/compiler.hpp:264-560", "examples/uoc_compiled/uoc_compiled.cpp:26-140"]}
{"id": "C119", "title": "Compiled simulations with adjoints do not depend on tasks or threads", "statement": "Given a compiled product that can be run on every path of a simulation (with the condition of C118 if its first event is at the evaluation date), MCSimulation<Number_> with compiled true has a result for every split of the paths into tasks, order of execution and assignment of tasks to threads: the aggregate divided by the number of paths is the mean over all the paths of the payoffs of the runs with doubles, there is one risk per model parameter and constant variable, and each is the mean of the pathwise derivatives up to a multiple of the propagation cutoff (exactly, without cutoff). For a script processed by PreProcess and Compile, without ELSE, the value is the mean of the values of the interpreted script, and the risks of constant variables are zero up to the cutoff; for the barrier rows of examples/uoc_compiled it is the mean of the discounted call payoffs of the paths that do not reach (reach) the barrier, whatever the smoothing.", "quantifier": "all compiled products and scripts meeting the conditions, all Black-Scholes parameters, rising dates with or without today, all streams of random numbers, all numbers of paths, splits into tasks, orders and threads, all cutoffs", "why_tests_cant": "Tests run one machine's thread count and order of tasks; each task has its own generator, tape and slot, and an error in one of them for a given split or order shows as noise in the mean", "anchors": ["dal/script/simulation.hpp:160-267", "dal/script/event.cpp:181-208", "dal/math/random/pseudorandom.cpp:143-188", "examples/uoc_compiled/uoc_compiled.cpp:26-140"]}
{"id": "C120", "title": "Evaluating again on a rewound tape gives derivatives, and the risks printed by the AAD example", "statement": "A program that is evaluated on the same inputs round after round, with the tape rewound to its start before each evaluation and adjoints propagated to the start after it, leaves in each input the number of rounds times the derivative of the result in that input; in particular examples/aad prints the value of its Black formula and its five derivatives, and the formula with is_call false is the put.", "quantifier": "for all inputs, programs, numbers of rounds, cutoffs and libraries with the derivative of erfc that the code uses", "why_tests_cant": "The example is run on one set of numbers and its output is not compared with anything; whether an address in use is overwritten depends on the number of nodes of the program and shows no error.", "anchors": ["examples/aad/aad.cpp:20-112", "dal/math/aad/tape.cpp:36-42", "dal/math/aad/blocklist.hpp:72-97", "dal/math/aad/expr.hpp:495-549"]}
{"id": "C121", "title": "The five matrix products of the performance example give the same matrix, for every scheduling of the parallel one", "statement": "For matrices of matching dimensions MultiV1, MultiV2, MultiV3, MultiV4 and MultiV5, on a result that was cleared, give the same elements to the last bit, which in exact arithmetic are those of the matrix product; for MultiV5 this holds however the threads interleave.", "quantifier": "for all dimensions, elements, arithmetics (also with rounding) and interleavings of reads and writes of the rows", "why_tests_cant": "The example runs on one pair of square matrices of fixed size and prints only the sums of the elements; interleavings of threads are not under control of a test.", "anchors": ["examples/matrix_perf/matrix_perf.cpp:11-140"]}
