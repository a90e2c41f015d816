# Design of the formal model of Derivatives-Algorithms-Lib

The properties are listed in `properties.jsonl` (C01, C02, ...). The model and the proofs are in
`lean/Verif`, one directory per area of the library:

* `Model.lean`  : executable definitions, each citing the file and lines of `/repo` it models;
* `Spec.lean`   : the independent specification (what the API promises), free of model helpers;
* `Lemmas*.lean`: helper lemmas;
* `Props.lean`  : the property theorems (the only names quoted in `MANIFEST.json`), each followed by an
  `example` exhibiting a concrete non-trivial case that meets its hypotheses.

Small areas keep the specification at the top of `Props.lean`.

## Trusted base

* The Lean 4.33.0 kernel, and the axioms `propext`, `Classical.choice`, `Quot.sound` (the standard ones).
  No axiom is added, there is no `sorry`, no `native_decide`, no `bv_decide`.
* The reading of the C++ source: the model was written by hand from the text of `/repo` (the code is
  not built or run). Every definition cites the lines it follows and the simplifications it makes.
* Integer arithmetic: C++ `int` expressions are modelled over `Int` with truncating division
  (`Int.tdiv`/`Int.tmod`) when the values stay far from the 32-bit limits; where wrap-around is part of
  the behaviour (16-bit date serial, 64-bit random generator state, ...) it is modelled exactly.
* Floating point: `double` is modelled by exact arithmetic in an ordered field (`Rat`, `Real`, or any
  linearly ordered field). Rounding is outside the model. Where the code truncates a floating-point quotient
  the comment states why rounding cannot change the truncation.
* Exceptions (`REQUIRE`, `THROW`) are a distinct outcome (`none`/`Except.error`); undefined behaviour
  (out-of-range access, null dereference, non-termination) is a distinct outcome wherever it is reachable.
* Threads: interleaving (sequentially consistent) small-step semantics at the granularity of the critical
  sections; the C++ memory model below that is outside the model.
* Standard containers (`std::map`, `std::sort`, `std::lower_bound`, `std::unique`) are modelled by their
  documented contracts.

## Plan, per property

| Id | Modelled | Proof method |
|----|----------|--------------|
| C01-C05 | date arithmetic: serial to/from year/month/day, weekday, month length, AddMonths | exact integer model against a Gregorian day-count specification; linear arithmetic over the cycle structure, no sampling |
| C06 | formatter and regular-expression parser on characters | round trip by digit lemmas |
| C07 | date-time values over rationals | algebra |
| C08 | special-day stepping | case analysis by month/day; negation witnesses where the code fails |
| C09-C11 | holiday calendars with sorted lists and binary search | refinement to the naive count; induction on distance |
| C12 | interleaving model of the registry | invariant / counter-example execution |
| C13 | schedule loops with fuel = non-termination outcome | induction; divergence proved where it happens |
| C14 | day-count fractions over rationals | algebra |
| C15-C18 | string comparison, condensing, next name, splitting | list induction |
| C19-C20 | boolean vectors, dictionaries | round trip |
| C21 | environment stack | induction on program nesting |
| C22 | repository map with prefix erasure | refinement to an abstract set |
| C23-C24 | global store and fixings | invariants over operation sequences |
| C25-C26 | archives | round trip, negations for the lossy cases |
| C27 | recursive-descent parser over tokens | round trip by induction on trees |
| C28-C34 | script syntax tree, evaluator, compiler, preprocessors, fuzzy evaluator | structural induction / abstract interpretation soundness |
| C35 | event grouping | list induction |
| C36-C38 | queue, pool, batching | invariants over interleavings; arithmetic |
| C39-C40 | pseudo-random generators | modular arithmetic, matrix powers |
| C41 | Brownian bridge | index invariants and an algebraic identity |
| C42-C44 | tape storage, adjoint propagation, stack | refinement; induction over the tape |
| C45-C47, C53 | linear algebra | algebraic identities by induction |
| C48-C51 | interpolation, splines, smoothing, root search | ordered-field algebra, invariants |
| C52, C54, C57, C58 | multi-dimensional addressing | mixed-radix injectivity, induction |
| C71 | calendars from text with the cache of combinations | invariant over all histories |
| C72 | tokens of script schedules | induction over the parameters |
| C73 | diagonal and triangular decompositions | induction over the loops, uniqueness of solutions |
| C74 | built-in calendars, facts about currencies | whole tables by the kernel, histories by induction |
| C75 | underdetermined search and approximation | invariants over both loops, quadratic minimisation |
| C76 | auditors and bags | induction over histories, multimap as a sorted list |
| C77 | Dupire and Black–Scholes paths | template over a number class, induction along the line, duals |
| C78 | parameters, clones and results of simulations | heap of members, all schedules |
| C79 | calibration, risk views, local volatility, Merton | case analysis on the row, finite sums |
| C80 | the stacks of the evaluators | structural induction, room counted on the tree |
| C81 | cells and arrays of Excel as arguments | induction over cells and rows, least fixed point of the growing block |
| C82 | results as arrays of Excel | induction over columns written, refinement to the list of columns |
| C83 | vectors, algorithms on containers, conversions to integers, statistics | laws over an ordered field by induction over lists, maps refined to the first value given |
| C84 | exceptions with notes | the stack of notes refined to the notes of the blocks around a throw, by induction over block programs |
| C85 | indices of interest rates: dates and names | cases over cells for any business-day rules; injectivity of names; witnesses for collisions |
| C86 | normal distribution function by splines, inverse | exact rational spline evaluated by the kernel and cast to the reals; signs of slopes by positive coefficients; log 0.02425 bounded by a series |
| C87 | printed form of scripts | the stack machine of the visitor against a recursive rendering, by mutual induction; prefix-code argument for the converse |
| C88 | archives of objects that refer to each other | one invariant for the tags of the writer and the table of the reader, by induction over the rank of objects; isomorphism of graphs |
| C89 | archives in text files | files, lines, fields, cells and tables by induction; then the reading of trees from tables of C25, made independent of the number of columns |
| C90 | objects as JSON texts | texts of documents by induction over trees against the parser of C26; composed with the reading of archives of C88 by a simulation |
| C91 | past fixings | environments of C21, maps as ordered lists, JSON texts through C90 |
| C92 | charts and matrices in sheets | sheets as functions of row and column; induction over lists, and over sequences of calls for charts that stay apart |
| C93 | kinds of cells, settings from dictionaries | cases over cells, on the dictionaries and texts of C20 and the search of C75 |
| C94 | interpolators of the public interface | conditions declared for the arguments turned into conditions on lists; the evaluation over a list composed with C48, C49 and C50 |
| C95 | generators as objects: rows, clones, branches, storage | a generator reduced to the sequence of its draws; rows by an invariant over the flag and the cache |
| C96 | the table of a valuation, products from sheets | maps with case-insensitive keys as sorted lists; the table as a permutation of the expected rows; cells of a sheet composed with the model of C35 |
| C97 | closed-form prices against means of payoffs, and the chain from the text of a script to the mean of its value | integrals over the normal distribution; the law of a path by characteristic functions; composition of C27, C28, C63, C77 with the closed forms |
| C98 | `BlackIV`, `BachelierIV`, `BlackIV` of a model in steps, `BlackScholesIVol`, `VolVega`, `ParameterDerivatives` and `ParameterNames` of both distributions, over ℝ, with the root search of C51 | Invariant of the search (the bracket holds the last place and its ends price on two sides) by induction over attempts; prices strictly rise with the volatility, by the derivative; the violated ones by running the search symbolically |
| C99 | The evaluator of scripts over `Number_`: the operators and comparisons of `expr.hpp` on values with derivatives, the trees of C27–C31 with their doubles lifted | Structural induction over expressions, conditions and statements: near the point the same branches are taken, and there each operator has the derivative of calculus |
| C100 | The means over Gaussian numbers of what paths compute as derivatives: Black–Scholes paths (C77) and scripts (C99) over numbers with derivatives | Integrals of the exercised payoffs by antiderivatives in the normal distribution function and density; the chain rule for the closed form; the digital by the law of the spot (C97) |
| C101 | The fuzzy evaluator over `Number_` (degrees of truth, stores, blends, nested levels), the trees of C34; Black–Scholes paths (C77) for the digital option | Structural induction as for C99, with partial states and their derivatives; the means by antiderivatives as in C100; difference quotients for narrow bands |
| C102 | The tasks of a simulation and their threads, the positions of the generators in the stream of normal numbers after `SkipTo`, with doubles and on the tape | Induction over the tasks gives the positions at which paths start; windows of an endless product of normal laws are normal and independent when apart; variances of sums, counting of common paths |
| C103 | The bridge of C41 in front of the payoffs of the simulations of C102 | The bridge is linear and keeps the sum of squares (C41), so it is an isometry of Euclidean space; isometries keep the standard normal law; means, spreads and errors follow |
| C104 | Compiled simulations with `Number_`: parameters, constant variables, `Init`, the mark, each path and each instruction as nodes of the tape of C43; one task | Every recorded node is followed as a value with a derivative in one input (invariant over recordings, instructions, events, paths); adjoints against these derivatives by the weighted sums of C43; options run instruction by instruction and compared with C100 |
| C105 | The other branch of the simulation with `Number_`: the smoothed evaluator on the tape, with stacks, variables and stores of positions; tasks whose sums and risks are added | Each visited node is followed as a value with a derivative (induction over trees, blends and events, with the invariant that the positions held are recorded and, where the script makes its numbers on the path, above the mark); the rest as C104; derivatives by C77 and C101; options compared with C100 and with the compiled branch |
| C106 | `ValueByMonteCarlo` with `enable_aad` from the parsed events to the table: preparation of the product, time line, tasks on threads with their own generators and tapes, sums, labels | The simulation is the sum over the run's tasks of C105 (induction over the tasks, with slots per thread), and the tasks cut the stream as in C102; the table as C95/C96; the preparation leaves the trees of options unchanged (domains computed); means by C102, C105 and C97; a simulation has a result exactly when every path of every task has one |
| C107 | Rolling a payoff back step by step with `FD1D_` and overwriting the edges, as the example program for European options does | Stability in the maximum norm by induction over the steps (from the step of C60), consistency by Taylor's formula on uneven grids, hence error bounds against any smooth solution; Black's formula solves the equation and is smooth before expiry, its mean is continuous up to expiry (dominated convergence), hence convergence for calls, puts and straddles on any fine enough grid; the natural spline through the values is within twice their steps (C49_natural), hence convergence of the price printed at any spot |
| C108 | `LowerBandAccumulator_::Add`: the loop over rows with its rotations, its shortening of the vector and its refusals | The product `LᵀL` entry by entry as specification; exact for a free row; frame and definedness by induction over the rows visited; negations for two numbers in a triangle of one entry and, by induction over any sequence of calls, for every solve with offsets from zero |
| C109 | The multi-result mode of the tape: the mode, recording with arrays of adjoints, reset, `PropagateAll`, and `PropagateOne` on such a tape | Each component follows the single propagation (simulation, node by node), so the sensitivities of C43 carry over; negations for single propagation in this mode (every program), numbers recorded before the switch, the cutoff shared by the results, and nested modes |
| C110 | The up-and-out call of `examples/uoc` and its knock-in mirror, from their texts through tokenizer, parser, indexer, `IF` processor, domains and constant conditions to exact and smoothed evaluation, Black–Scholes scenarios and the table with sensitivities | The processed trees are computed for any number of dates (induction; the domain of the flag is one of three); exact and smoothed runs by induction over the dates; refinement to a specification on spots only; parity, bounds and means from it; negation for dates tested twice |
| C111 | Products with events before the evaluation date: the split by date, past evaluation with its stacks, and the variables it leaves at the start of every path, together with indexer, `IF` processor, domains, constant conditions, exact and smoothed evaluation and the table | Refinement to a specification that runs the parsed trees by name (past events without payments, events to come on a path), by induction over trees and events through the soundness of the domains (C32) and the stacks (C80); barrier options computed for any number of past dates; negations for fixed spots and for many past payments |
| C112 | `DCF` in scripts: its tokens, the loops over its three fields, the day basis by name and the two dates | Refinement to a small specification of year fractions, for every spelling of the names (case, blanks, underscores) and all readable dates, through the tokeniser (induction over texts), the names (C67), the texts of dates (C06) and the day bases (C14); the grammar of C27 now has `DCF`; negations for missing fields, further fields and late dates |
| C113 | Scripts of a syntactic class (no `LOG`, `MAX`/`MIN` of two arguments, division by written numbers and constants other than zero): indexer, `IF` processor, domain analysis and constant conditions never refuse one, and what is evaluated is worth what the parsed trees say | Totality of the interval arithmetic (C32_total, mutual induction over trees with non-empty, well-formed intervals), then refinement through C111; the class is checked on the text only, no condition on runs |
| C114 | The snowball of `examples/snowball`: its texts for the start, the dates of the schedule and maturity, through tokeniser, parser with `DCF`, processing and evaluation | Refinement to an autocallable note defined without scripts (first date above a level, ever below another), for any number of dates, any levels, coupon, strike and any path with positive numeraires; induction over dates; likewise smoothed (a mixture date by date, between the least and the greatest payment, the exact value away from the levels) and up to the table of values and sensitivities (C106) |
| C115 | Macros and the placeholders `PeriodBegin`/`PeriodEnd` in the texts of events: the first place where a name is found, up to case, is replaced and the search goes on behind it; several macros in the order of the map; the tables of the snowball and barrier examples become the events of C114 and C110 and their values | Induction over the text for the replacement, over the macros and over the periods of the schedule; refinement of the whole table through C35, C27 and C114 |
| C116 | Valuations with sensitivities of products whose first event is on the evaluation date, as all the scripted examples are: the value is the mean of the payoffs and the risks are, up to the cutoff, the means of the derivatives; today needs no normal number; the barrier and snowball examples from the rows of their tables to the results | The proofs of C105, C106, C110 and C114 made for dates with or without today (`risks_from`, `simulation_from`, `exact_from`, `gradient_from`, `table_from`, `seasoned_from`, `barrier_report_from`, `snowball_report_from`); the numbers that are made before the mark are tracked by `OwnSs` |
| C117 | The European option of `examples/european_mc`, from its two rows to the printed numbers: the rows give one event and one constant, the simulation gives the mean of the discounted payoff and five risks, and over the noise the means are the benchmark of the example and its five derivatives | The parser, preparation and simulation of C27, C106 put together for one date; the benchmark is spelled as the example spells it and shown to be the discounted Black price of C97 |
| C118 | Compiled simulations with adjoints of a product with an event today, and the compiled barrier option of `examples/uoc_compiled` | The tape of C104 with today's sample, whose spot lies below the mark; an invariant along the run (the payoff's number stays above the mark when no instruction copies to the payoff) replaces the one that fails; the compiler emits such an instruction only for an assignment to the payoff (induction on the compiler); C29 and C110 then give the value of the barrier option |
| C119 | Compiled simulations with adjoints over several tasks and threads | The tasks of `MCSimulation<Number_>` with `compiled`, each with its own generator and tape, added into the slots of the threads; C118 for each task, sums over slots by induction on the tasks, and the positions of the generators as in C106; then scripts (C29) and the barrier option (C110); a simulation has a result exactly when every path of every task has one |
| C120 | Derivatives from a tape that is rewound under its inputs | `examples/aad/aad.cpp`: memory by address, numbers with values and addresses, `Rewind` to the start; a simulation of the rounds by the paths of C43 (the inputs are above the nodes recorded), so the adjoints over the rounds are derivatives; a program with one node more overwrites its inputs; the example's formula and its five derivatives |
| C121 | The five matrix products of `examples/matrix_perf` agree | `MultiV1` to `MultiV5` on flat storage, for any arithmetic (no laws, so the order of roundings is kept); `MultiV5` for every interleaving of the reads and writes of its rows: a row sees only its own steps; the stride of `MultiV2` is right for square results only |
| C55-C56, C59-C65 | curves, merging, option relations, finite differences, names, paths, time lines, tables | algebra and case analysis |

## Properties one by one

For each property: what is modelled (files in `lean/Verif`), how it is proved, and what is left out. Statuses and notes are in `MANIFEST.json`.

### Dates (`Time/Date*`)
* **C01–C05** `DateModel.lean` follows `date.cpp` on the 16-bit serial with the truncating integer divisions of the code. `DateSpec.lean` is a separate
  Gregorian calendar (leap rule, month lengths, day number by recursion over years and months). Proofs are by linear arithmetic over the 4- and
  100-year cycles for *all* serials. The floating-point quotients of `ExcelDateToYMD` are shown insensitive to rounding (C01_rounding_immaterial).
* **C06** formatter and regular-expression matcher on character lists; round trip by digit lemmas.
* **C07** a time of day is a rational number; order and addition by algebra.
* **C08** `IncrementModel.lean`; case analysis on month, day and weekday for every date; negations with witnesses.
* **C09–C11** `HolidaysModel.lean`: calendars are lists of sorted holiday lists. Counting refines the naive count; searching is by fuel, and
  C10_terminates_iff says exactly when it returns.
* **C12** interleavings of `AddCenter` at the granularity of its reads and writes of the shared pointer.
* **C13** `ScheduleProps.lean`: generation as a loop with fuel; fuel running out for every fuel is non-termination, which is proved for EOM.
* **C14** `DayBasisModel.lean` over rationals. Recursion of ACT/ACT by fuel.
* **C66** the whole table by `decide +kernel`.
* **C71** `HolidayTextModel.lean`: calendars read from a text, with the registry, the cache of combinations and all calendars made so far as the state. An
  invariant over every sequence of registrations, constructions and counters; sorting of names is any function meeting the contract of `std::sort`. One thread.
* **C74** `BuiltInModel.lean`: the tables of holidays copied from the headers, the facts about currencies, and the initialisers with their flags. Every call runs alone;
  the thread pool and the tape made by `RegisterAll_` are left out.
* **C70** `StepModel.lean`: reading and applying tenors, nominal maturities. The text of holidays is read by a parameter.

### Strings and dictionaries (`Strings`)
* **C15–C19** bytes with a flag for signed or unsigned `char`; comparison by the table `CI_ORDER`, computed in the model as in the code. Undefined behaviour
  of `toupper` on negative `char` keeps C16 to ASCII. C17 proves injectivity of any number of steps of `NextName` by a rank function.
* **C20** cells, text of cells, and reading them back; `C20_text_roundtrip` reduces the round trip of a dictionary to that of each value.
* **C67** `EnumTables.lean` holds the tables of the fifteen generated enumerations; readers and printers are one function of the table as in the generator's
  output. Whole tables are decided, texts are arbitrary.

### Environment and storage (`Storage`)
* **C21, C23** blocks with exceptions as a small imperative language; induction over programs.
* **C22** the repository as a sorted map, `Erase` by regular expression given as an arbitrary predicate on tags; concurrent adds as interleavings.
* **C24** histories as maps; invariants over sequences of stores.
* **C25, C26** writers and readers of both archives on trees of values; every excluded case has a theorem showing what is lost.
* **C76** `AuditModel.lean`: auditors in a store, environments as in C21, `std::multimap` as the list of its entries. Objects are identities, casts a test on them.

### Scripts (`Script`)
* **C27** tokens, the recursive-descent parser by fuel, an independent grammar (`ParserSpec.lean`), totality (`ParserTerm.lean`).
* **C28–C33** the syntax tree (`Ast.lean`), interpreter, compiled stream with jump targets, variable indexing, constant marks, `IF` processor, interval
  domains, removal of decided conditions. Structural induction; abstract interpretation for C32.
* **C34** the fuzzy evaluator with its stores against a store-free semantics.
* **C35** grouping of event rows; the parser and schedules are parameters.
* **C72** `ScheduleModel.lean`: the loop over the tokens of a schedule, with out-of-bounds reads and null handles as outcomes. The text of calendars (see C71) and the pin
  dates (see C13) are parameters; adjustment to business days is the model of C13.
* **C80** `EvalStackModel.lean`: interpreter and past evaluator on stacks of 128 cells, a push on a full stack is `none`; the room is counted on the tree in `RoomSpec.lean`.
  Compiled evaluation (C29) has the same stacks.
* Not modelled: derivatives through scripts.

### Concurrency (`Concurrency`)
* **C36, C37** step semantics, one step per critical section and notification, with spurious wake-ups, any number of threads and any schedule. Invariants by
  induction over steps; a decreasing measure bounds runs. The C++ memory model (the unsynchronised flag `interrupt_`) is outside.
* **C38** the batching loop with `int` overflow and casts modulo 2^32.

### Random numbers and AAD (`Random`, `Aad`)
* **C39, C40** exact integer recurrences in `double`; `SkipTo` by matrix powers modulo m, with the wraparound of the code.
* **C41** bridge construction with index checks; sums of squares by induction over construction order.
* **C42, C44** storage by blocks and stacks with identity of storage; refinement to lists.
* **C43** recording and propagation over the reals, compared with Mathlib's `HasDerivAt`/partial derivatives. The multi-result mode is under C109.

### Linear algebra and numerics (`Matrix`, `Interp`, `Numeric`, `Pde`)
* **C73** `DecompModel.lean`: loops as in the code, with aliasing of source and destination, failed checks and reads outside as separate outcomes. The square root is a
  parameter with its law.
* **C45–C47, C53** loops as in the code over an ordered field; solves invert multiplications by induction over rows; square roots are parameters with their
  defining property as hypothesis. `LowerBandAccumulator_::Add` is under C108, `QForm` under C75.
* **C48–C51** halving search, splines (twice differentiable over the reals), smoothing as minimiser, Brent with hunt phase.
* **C52, C54** mixed-radix addressing for any rank.
* **C57, C58, C65** `Matrix_` with storage identity, spare row and iterators; arithmetic with aliasing; the format language with its parser.
* **C59, C68** option formulas over the reals; `erfc` is defined by its integral, so greeks are proved as derivatives.
* **C60, C69** operators exact on quadratics, theta scheme, meshers, coordinate maps.
* **C75** `UnderModel.lean`: `Find` and `Approximate` with the counts of evaluations and gradients, over an ordered field; the solvers of the weights and of the
  square system are parameters that must solve what they return. A Jacobian of zeros over zeros, a failed assertion and reading an empty vector are outcomes of their
  own. `UnderProps.lean` states the line search by the quadratic it minimises and the approximation by the weighted misfit.

### Market data and simulation (`Curve`, `Protocol`, `Indice`, `Risk`, `Sim`)
* **C55, C56, C61, C62, C63, C64** as the notes in the manifest say: algebra over an ordered field and case analysis.
* **C77** `DupireModel.lean`: the models as templates over a number class, instantiated at the reals and at numbers with a derivative (`AAD::Number_`; that the tape gives such
  derivatives is C43). Partial: the derivatives are right only when the volatilities do not vary with the spot, see the findings.
* **C78** `ResultModel.lean`: a heap of objects with members, pointers to them, `std::map` as a partial function; the risks over all schedules of the batches of C40.
* **C79** `CalibModel.lean`: one row of the calibration with its reads outside as `none`, risk views with the interpolation of C48, `LocalVol` on its own finite differences,
  `Merton` with the price of a call as a parameter. Partial: the forward equation is met only when the rates are equal.

### Excel (`Excel`)
* **C81, C82** (`OperModel`, `InputProps`, `OutputProps`): _excel.cpp, the conversions between `OPER_` and values, `RowReader_` and `Retval_::ToXloper`. Arrays hold no arrays, products
  of sizes do not overflow, numbers are exact; an array announced larger than its memory is undefined when looked at. Not modelled: memory for Excel, registration of functions,
  messages of errors, handles, `Matrix::Format`.

* **C83** (`Util/VectorModel`, `VectorProps`): vectors.hpp (arithmetic, equality, `XRange`), algorithms.hpp (`Transform`, `Apply`, `Zip`, `Unique`, `IsMonotonic`, `Keys`, `MapValues`),
  maps.hpp, numerics.hpp/.cpp. `std::sort` is any sorted permutation, so `Unique` is a relation. Numbers are an ordered field, square roots are a parameter with the property of a root.
  Not modelled: integer element types, `Filter`, `Join` and the other one-line wrappers of the standard library.

* **C84** (`Util/NoteModel`, `NoteProps`): exceptions.hpp, exceptions.cpp. Blocks with variables, assignments, notes, throws and catches run on a memory by address and the vector behind
  `XTheStack`; the specification (`meaning`) has no stack, notes are those around. One thread, notes on; memory does not run out.
* **C85** (`Indice/RateModel`, `RateProps`): index/ir.hpp, index/ir.cpp on the cells of C38 and the parser of names of C61. `Libor::StartFromFix` and the tenors (C11, C70) are parameters.
  Texts are compared exactly. Not modelled: `Fixing` (needs the history of C61) and collaterals beyond being set.
* **C86** (`Numeric/NcdfModel`, `NcdfLemmas`, `NcdfProps`): specialfunctions.cpp on the splines of C49. Constants are exact decimals, arithmetic is exact; `erfc`, `exp`, `log` are the
  functions of Mathlib. The spline is computed over the rationals, shown increasing piece by piece by `decide +kernel` over its 15 pieces, and carried to the reals by a cast lemma.
  Not proved: how near the spline and the rational approximations are to the true functions.

* **C87** (`Script/DebugModel`, `DebugProps`): debugger.hpp and `ScriptProduct_::Debug`. The visitor is the stack machine of the code (arguments from right to left, popped again
  from left to right, prefix with one tab more inside); an empty stack is undefined and shown unreachable. Doubles are rational numbers printed by `%f` with round-half-even. Texts of
  dates and names of variables are parameters.

* **C88** (`Storage/ArchiveModel`, `ArchiveProps`): archive.hpp, archive.cpp and the scheme of the generated readers and writers: members that are required, optional or multiple, values or
  handles; tags given by the writer, table of known objects of the reader, which is filled only when an object is complete. Heaps are functions from addresses to objects; cycles are
  excluded by a rank because handles are constant and so cannot close a cycle. The storage of single values is a parameter with the hypothesis that the value comes back (C25, C26 say which do).
  The table `library` lists every generated class.
* **C89** (`Storage/FileModel`, `FileProps`): `SplatFile` and `UnSplatFile` of splat.cpp with `ToStringLines`, `File::Read`, `File::Write`, `SplitLine`, `AsCell`, `FileTable` and the extraction of
  values from cells. A file is its bytes. Simplifications: no translation of line ends, no failures of the disk; `strtod` and the text of fractions are parameters with the assumptions `NumSpec`
  of C20; numbers are rational; a cast of a number without an `int` counts as an exception.
* **C90** (`Storage/JsonDocModel`, `JsonDocLemmas`, `JsonDocProps`): `JSON::WriteString` and `JSON::ReadString` on whole objects: `XDocStore_` (labels, commas, children, arrays, matrices) and
  `View_` of json.cpp over the archives of C88 and the parser of C26, with the classes of the library. The values a text can hold are a separate predicate (`JsonFits`). RapidJSON is the parser of
  C26; `known_` and the builders are those of C88. Not modelled: streams that fail, the file functions around the strings, texts in UTF-8 that are invalid.
* **C91** (`Storage/PastFixingModel`, `PastFixingProps`): `Index::PastFixing`, `Index_::Fixing`, `FixingsAccess_::Fetch`, `IndexKey_`, `ZipToMap`, `Fixings_::Write` and `Build`, on the environments
  of C21 and the JSON texts of C90. A read through a null pointer, an exception and minus infinity are different outcomes. Numbers are rational. Not modelled: how access objects get their maps.
* **C92** (`Excel/DriverModel`, `DriverProps`): `ExcelDriver_` of exceldriverlite.cpp: rows and columns written cell by cell, the columns of a chart, its range, sheets of matrices, vectors and
  texts. Of Excel only cells, sheets, charts with their ranges and the rule of names (parameters) are there; axes, titles and the ends of sheets are not modelled.
* **C93** (`Strings/SettingsModel`, `SettingsProps`): `Cell::ToDouble`, `ToInt`, `IsInt`, `ToBool`, `ToDate`, `ToDateTime`, `ToString`, `ConvertString`; `Dictionary::Extract`; the constructor of
  `UnderdeterminedControls_` from a dictionary and `Data`, on the cells and dictionaries of C20 (numbers are rationals, number texts are parameters).
- `Excel/InterpolateModel`: `public/excel/__interp.cpp`, `public/src/interp.cpp` and the conditions of the generated `MG_Interp*_public.inc`, on top of `Interp/LinearModel`, `Interp/CubicModel` and `Numeric/SmoothModel`. Not modelled: reading the arguments from the sheet (C81), handles (C22).
- `Random/ObjectModel`: `PseudoRandom_` and `PseudoRSG_` (`pseudorandom.hpp`, `pseudorandom.cpp`), the kinds of `MG_RNGType_enum.inc`, the public functions of `public/src/random.hpp` and `public/excel/__random.cpp` for pseudo-random numbers, on top of `Random/PseudoModel`. Not modelled: Sobol numbers, whose source is not in the repository; the inverse of the normal distribution is a parameter (its own model is that of C86).
- `Sim/ValueModel`: `SimResults_` and its map by name, `ValueByMonteCarlo` and the rows of `MonteCarlo_Value`, `Product_New`, `Product_Debug`, the constructor of `ScriptProduct_` on top of `Script/EventModel`. Not modelled: the simulation itself (C38, C78), which is a parameter, negative numbers of paths, and the cast of the number of paths from `double`.
- C97 has no model of its own: it composes `Numeric/OptionModel` (C59), `Sim/DupireModel` and `Sim/TimeLineModel` (C63, C77), `Script/ParserModel` (C27), `Script/IndexModel` (C28) and the interpreter of `Script/Ast`. The mean over paths is the integral over the product of standard normal distributions; that the generators are close to it is not claimed.
| `Numeric/ImpliedModel.lean` | `black.cpp` 14–26, 55–67, 97–141, `black.hpp` 57–106, `distribution/utils.cpp`, `analytics/vanilla.cpp` |
| `Script/GradientModel.lean` | `evaluator.hpp` 107–275 for `Number_`, `expr.hpp` 42–96, 161–177, 376–454 |
| `Sim/GreekProps.lean` | No new code: `dualPay` and `digitalTree` are scripts in the models of C99 and C27 |
| `Script/SmoothModel.lean` | `fuzzy.hpp` 15–51, 135–261 for `Number_`, `expr.hpp` 182–186, `event.hpp` 118–127 |
| `Sim/NoiseModel.lean` | `simulation.hpp` 71–157, 160–266, `simulation.cpp` 15–18, `SkipTo` of the generators as positions (`pseudorandom.cpp` 86, 143–188) |
| `Sim/BridgeLawProps.lean` | `bridged`, `through`: `BrownianBridge_::FillNormal` (model of C41) in the place of the generator, as `CreateRNG` with `use_bb` does (`simulation.cpp` 11–25) |
| `Sim/TapeModel.lean` | `tSimulate` and its parts: `EvalCompiled` with `Number_` (`compiler.hpp` 355–598), `EvaluateCompiled` (`event.hpp` 129–141), `BlackScholes_` (`blackscholes.hpp` 38–146), `InitModel4ParallelAAD` and one compiled task (`simulation.hpp` 38–58, 203–228). One task; numbers given; a missing variable is a leaf of value zero |
| `Sim/FuzzyTapeModel.lean` | `vSimulate`, `vTasks` and their parts: `FuzzyEvaluator_<Number_>` (`fuzzy.hpp` 15–261, `evaluator.hpp` 81–275), `Evaluate` (`event.hpp` 76–81, 118–127), the branch that is not compiled (`simulation.hpp` 229–252) and the sums over tasks. Numbers given; stores and missing constant variables start as a leaf of value zero; dates after today in the theorems |
| `Sim/ReportModel.lean` | `prepare`, `times`, `task`, `simulation`, `report`: `ValueByMonteCarlo` (`public/src/value.cpp` 22–46), `PreProcess` and the time line (`event.cpp` 86–156), `MCSimulation<Number_>` not compiled (`simulation.hpp` 160–267). No past events, Black–Scholes, pseudo-random numbers without a bridge; order of the tasks and their threads given |
| `Pde/RollModel.lean` | `setEdges`, `rollLoop`, `european`: the loop of `examples/european_fd/european_fd.cpp` 52–68 around `FD1D_::RollBwd` (`fd1d.cpp`). Payoff and edge values are parameters; doubles are real numbers. `fdPrice`: the price printed, off a natural spline through the values (lines 70–73) |
| `Matrix/AccumModel.lean` | `accNew`, `setRow`, `rowZero`, `copyBack`, `rotVec`, `rotRow`, `shorten`, `addLoop`, `add`, `addAll`: `LowerBandAccumulator_` (`banded.cpp` 339–383). Doubles are elements of an ordered field, the square root is a parameter; not-a-number ends in the exception of the following check |
| `Aad/MultiModel.lean` | `setNumResults`, `releaseResults`, `record`, `resetAdjoints`, `stepOne`, `stepAll`, `descend`, `propagateMulti`, `propagateSingle`: `aad.hpp` 18–29, `tape.hpp` 39–51, `tape.cpp` 12–19, `node.hpp` 41–59, `expr.hpp` 487–569. Nodes by position as in C43; arrays of adjoints by node and component; null and short arrays are `none`. Marks and rewinding of the array storage are under C42 |
| `Sim/BarrierText.lean` | Texts of `examples/uoc/uoc.cpp` 49–58 and their mirror image; `lastText _ true` is the joined text of `event.cpp` 46–47 and 67–68 when maturity is a date of the schedule. The schedule itself is under C13 and C72, macros under C35 and C115. If the first date is also a date of the schedule (`FIXING: BEGIN`) the barrier is also tested there; that case is not covered |
| `Sim/SeasonedModel.lean` | `event.cpp` 74–84, 86–119, 126–146, `pastevaluator.hpp`. Every past spot is the number 30 that the source pushes. Texts of events in the past are parsed as the others (C27). `SeasonedProps` assumes of scripts that nothing is divided by zero, that logarithms are of numbers from one on, that `MAX` and `MIN` have two arguments and that constants are not assigned to; outside of this see C32 |
| `Script/DcfModel.lean` | `parser.cpp` 254–292 with `daybasis.cpp` 66–84. Iterators may run past the closing parenthesis and past the end of the text (undefined). Fractions are exact. Extensions of `DayBasis_` are left out (none is registered); reserved words among the tokens are taken in capitals |
| `Script/DomainTotalSpec.lean`, `Sim/TameSpec.lean` | No code: the syntactic classes for which C32_total and C113 are stated |
| `Sim/SnowballText.lean` | `examples/snowball/snowball.cpp` 45–66: the texts, with `PeriodEnd` already replaced by the date (C115) |
| `Script/MacroModel.lean` | `script/event.cpp` 29–32, 36–43 and 63–65: `std::regex_replace` with `icase`, for names of letters, digits and underscores and replacements without `$`; the library's regular expressions themselves are not modelled |
| (no new model) | `Models.BS.scenario` takes today's spot through the logarithm and back, the tape uses the number of the parameter as `blackscholes.hpp` 131–134 does; for a positive spot these are the same values and derivatives (`spot_real`, `spot_dual`), and C116 asks for a positive spot |
| (no new model) | `europeanTable`, `europeanBenchmark`, `europeanTime` and `europeanValue` transcribe `examples/european_mc/euorpean_mc.cpp` 41–54; the text of the strike (`ToString`) is any text that the library reads as a number, the generator is any of the pseudo-random ones for the statement on means (Sobol numbers are not random) |
| (no new model) | `Prepared.compiled` puts `constEvents` and `compileEvent` together as `ScriptProduct_::Compile` (`event.cpp` 181–208) does, for a product without past events |
| `Sim/CompiledRunModel.lean` | `MCSimulation<Number_>` with `compiled` (`simulation.hpp` 160–267): tasks in any order on any threads, each on its own tape; Black–Scholes, doubles as real numbers, tasks one after the other |
| `Aad/RewindModel.lean` | `examples/aad/aad.cpp` 20–112 with `Rewind` (`tape.cpp` 36–42) and recording over older nodes (`blocklist.hpp` 72–97): addresses along the tape, doubles as real numbers, `erfc` a parameter |
| `Matrix/PerfModel.lean` | `examples/matrix_perf/matrix_perf.cpp` 11–140: flat storage with checked accesses, elements of any type; natural numbers for dimensions, addresses not checked until they are used, sequentially consistent memory for `MultiV5` |

## Axioms

`AXIOMS.md` lists for every theorem of the manifest the axioms `#print axioms` reports; it is made by `tools/gen_axioms.py`. Only `propext`,
`Classical.choice` and `Quot.sound` occur.

## Wrong programs

`tools/mutate.py` edits a definition of the model in a scratch copy the way a programmer could have got it wrong, rebuilds, and reports the theorems that
fail. `seeded/LOG.jsonl` has a line for each attempt: the definition, the edit, the claim it breaks, the theorems that failed, and the theorems that were
added or tightened because none did. Where the wrong program computes the same function as the code, the line says so.

## Findings

Places where the code as read does not do what the property says. Each is proved (the theorem is named) unless marked "by reading".

### Dates
* `Date_(y, m, d)` is one day early for 2034-03-01 to 2100-02-28 (`date.cpp` 33): C01_violated, C01_ctor_gap_is_one_day_early. Consequences for month lengths
  and month ends (C04_violated, C04_endOfMonth_violated), adding months (C05_violated), reading text (C06_violated), dictionaries (C20_date_violated), archives,
  index names (C61_equity_date_violated) and day counts.
* `AddDays` wraps modulo 2^16 without notice: C02_addDays_wraps.
* `DateTime_` accepts negative fractions, after which the order is wrong: C07_violated.
* CDS and quarterly IMM dates stop in months that are not quarter months: C08_cds_violated, C08_imm_quarterly_violated.
* EOM forward does not move from the end of a month (C08_eom_forward_violated), so schedules with it never end (C13_eom_does_not_terminate).
* Two concurrent `AddCenter` calls can lose a centre: C12_lost_update.
* If the name CN.IB is taken, starting the library fails after registering CN.SSE and every later attempt fails too: C74_half_initialised_violated. Only the yuan has a
  fixing calendar; for every other currency finding the start of a rate is an exception: C74_other_currencies_violated. The holiday tables end in October 2025.
* A centre whose name contains a space is registered but no calendar can name it: C71_spaced_name_violated.
* Fixing and start dates are not inverse off business days: C11_not_inverse_off_business_days.
* ACT/ACT recurses for ever from 2034-12-31 on (C14_actAct_violated) and is not antisymmetric across years; annual ACT/365L does not return when the period
  covers the end of February of a common year (C14_act365L_does_not_terminate) and takes 364 days for 2034 and 366 for 2100 (C14_act365L_year_violated); 30/360 does not
  cap the 31st after a 30th (C14_bond_violated).

### Strings, dictionaries, enumerations
* Bytes above 127 that differ in the case bit compare equal: C15_high_bytes_conflated.
* `Split` drops a last empty piece: C18_split_join_trailing.
* A dictionary written as text loses booleans, blanks, numbers of 2147483647 or more and strings that look like numbers or dates: C20_bool_violated,
  C20_blank_violated, C20_large_number_violated, C20_string_survives_iff.
* A refused `RegisterExtension` leaves some of its names registered, and any two extensions compare equal: C67_register_partial_violated, C67_ext_equal_violated.

### Storage
* A name with `~` is erased by adding a prefix of it, and concurrent adds leave duplicates: C22_tilde_violated, C22_concurrent_violated.
* Move assignment onto a live override loses the saved date: C23_move_assign_violated.
* By reading: nothing installs the store of fixings, there are two definitions of `FixHistory_`, storing an empty history makes later reads throw, `PastFixing` in
  quiet mode dereferences null.
* Spreadsheet archive: empty values, blank entries, one-column matrices and objects without members are lost or read outside: the five C25 violations.
* JSON archive: integers are never read back, numbers are cut to six decimals, quotes and backslashes are not escaped, strings that look like dates become dates,
  blanks become empty strings: C26_int_violated, C26_int_vector_violated, C26_number_error, C26_string_violated, C26_escape_violated (C26_string_survives_iff says which strings survive), C26_cell_violated.
* Auditors start with a mode that was never set, and the first `Find` of a process dereferences the first entry of a bag that may be empty
  (C76_first_find_violated). A passive or showing auditor makes every `Audit` in its environment an exception, half done (C76_audit_violated).

### Scripts
* Leftovers in parentheses are dropped, comparisons starting with a parenthesis are refused, an unfinished IF reads past the end, `^` is accepted as a
  name and a trailing comma accepted: the five C27 violations.
* After a taken IF with ELSE, a further condition in the same event writes outside the compiled stack: C29_after_else_violated. Folded `>=` has a tolerance of -EPSILON:
  C29_folded_violated. By reading: `MAX` and `MIN` use two arguments only; constants are baked into the stream, so their sensitivities vanish.
* Assignment to a constant name is accepted and not recorded: C31_constant_target_violated.
* Domain analysis takes the range of `LOG` to be non-negative and mishandles `MAX` with three arguments: C32_log_violated, C32_max_violated.
* A schedule is refused when FIXING is not its last parameter (C72_fixing_not_last_violated), reads a null handle without FREQ and outside the vector with fewer than two
  tokens (C72_no_frequency_violated), and ignores an unfinished last parameter (C72_incomplete_last_ignored). By reading: `ModifiedFollowing` is read but then refused.
* Smoothed NOT and `!=` pop an empty stack, width 0 gives 0/0 at a tie: C34_negation_violated, C34_zero_width_violated.

### Concurrency, random numbers, AAD
* After an interrupt queued items stay hidden: C36_interrupt_hides_violated. Two clients share thread number 0: C37_two_clients_violated. No threads when the hardware
  concurrency is unknown: C37_unknown_hardware_violated. From 2^31 paths on paths are lost: C38_few_paths_violated, C38_no_paths_violated.
* Antithetic `FillUniform` with a longer vector gives exactly 1: C39_longer_vector_violated. `SkipTo` of MRG32k32a goes half-way, so that batches reuse paths
  (C40_mrg_reuses_paths_violated, C40_mrg_not_the_path_violated); that of ShuffledIRN does nothing (C40_irn_violated). By reading: `Clone` drops `precise`, `Branch` ignores its argument.
* A bridge without dimensions indexes outside: C41_no_dimension_violated.
* Iterating a tape whose last block is full leaves it, and `Clear` leaves the mark dangling: C42_iteration_full_violated, C42_full_block_violated, C42_clear_mark_violated. A record longer than a block is written past its end: C42_too_long_violated.
* Derivatives below EPSILON are lost, a tie of `max` gives no derivative, results recorded before the mark propagate off the tape: the three C43 violations.
* `TopAndPop` of the growable stack reads above the top; pushing after `Clear` or a move writes through null; no overflow check in the static stack: the C44 violations.

### Numerics
* Tridiagonal multiplication in place is wrong: C45_multiply_in_place_violated.
* Banded matrices are never decomposed, the symmetry check and the transposed solve read outside, the right solve of the accumulator is the left one: the C46 violations.
* Cholesky solve does not size its result; a zero variance divides by zero: C47_solve_into_empty_violated, C47_zero_variance_violated.
* Interpolation accepts repeated and missing nodes: C48_repeated_violated, C48_empty_violated.
* Smoothing couples the wrong pairs and never the first; a zero first weight divides by zero: the C50 violations.
* Multiplying a lower triangular matrix from the left leaves out the diagonal (C73_lower_left_violated); diagonal matrices cannot multiply or solve into a new vector
  (C73_diagonal_into_empty_violated).
* Brent with a root at both ends gives 0/0: C51_both_zero_violated. CG and BCG with an exact guess give 0/0: C53_exact_guess_violated, C53_exact_guess_bcg_violated.
* Arrays: every resize loses the element at the origin, growth leaves the storage at its old size, empty cubes never get storage, zero sizes read outside: the C52 violations.
* Matrices: a resize with unchanged columns exposes the spare row, a transposition without columns is undefined, a refused `Append` has already resized, longer later vectors
  spill: the C58 violations. Volatilities below EPSILON give a diagonal below 1: C65_small_variance_violated. Empty pieces of a format are undefined: C57_missing_piece_violated.
  By reading: the move constructor leaves `cols_` uninitialised; `Swap` takes the front of no hooks.
* Bachelier prices with forward and strike of different signs ignore the volatility although the vega is positive; no greeks at zero volatility: the C68 violations.
* The finite-difference roll-back does not discount the edges: C60_edges_not_discounted.

* The minimiser of the line search has one factor two wrong: it is right only for orthogonal or equally large misfits (C75_backtrack_fraction_partial); steps that
  take every value down by a factor of two thirds or more are rejected (C75_good_step_rejected_violated), so a search with a clear descent can give up
  (C75_gives_up_violated). When the number equals the tolerance a debug build aborts (C75_assertion_violated).
* `Approximate` never leaves its guess with up to three evaluations (C75_approximate_few_violated); for affine functions with seven or more evaluations and
  few gradients its second step is zero and the secant update divides zero by zero (C75_approximate_affine_violated).
* By reading: `eff_j_inv` of `Find` is never filled; `QForm` solves into an empty vector, which C47 and C73 show to be undefined or an exception for the library's own
  decompositions; `SelfCouplePWC` is declared and never defined.

### Market data, risk, simulation
* A location outside an axis other than the first aliases another cell; a refused address truncates rows; a repeated axis name writes outside: the C54 violations.
* A piecewise linear curve without knots reads the front of nothing: C55_empty_violated.
* FX names never parse, equity names with `]` are cut, different equity indices share names: C61_fx_violated, C61_equity_bracket_violated, C61_equity_names_collide.
* The extremum of a path is a bound of the collar or 0 whatever the path: C62_extremum_violated, C62_extremum_outside_violated.
* The Dupire time line drops today when the first date is within half a day, gaps can exceed the maximum step by a relative EPSILON, processing a product twice doubles its
  time line: C63_dupire_today_violated, C63_gap_violated, C63_preprocess_twice_violated.
* A Dupire path computed with `AAD::Number_` loses how the volatility varies with the spot (the share of the interpolation is cast to `double`): the delta is always the spot
  over the spot of today (C77_spot_violated) and the vegas are wrong from the second step on (C77_vega_violated). The forwards of a Dupire scenario are the spot
  (C77_forward_violated), and a product without forwards writes to the first vector of none (C77_no_forwards_violated).
* A mutant of model data with a slide reads its name through null (C78_slides_violated); a copy of results reads the risks of its source (C78_copy_violated), an unknown name
  is read through null (C78_unknown_name_violated); a script constant named as a model parameter hides the risk of the parameter (C78_name_clash_violated), and Dupire
  nodes whose numbers agree in two decimals share a label (C78_label_clash_violated).
* The calibration reads outside its row when all spots are on one side of the range (C79_outside_violated), and gives zero volatilities when the range falls between two spots
  (C79_gap_violated). A risk view without strikes or maturities reads outside (C79_no_nodes_violated). `LocalVol` misses a factor of the strike in the carry
  (C79_local_vol_violated). `Merton` drops ten jumps and more without scaling, so even the forward is too low (C79_forward_violated).
* Nothing checks the 128 cells of the evaluation stacks: 128 nested sums (C80_deep_violated) and a compiled condition of 129 comparisons joined to the right
  (C29_deep_condition_violated) write outside. The past evaluator never pops the amount of a payment, so more than 128 past payments write outside (C80_past_violated).
* Excel: a missing optional date is the invalid date instead of nothing, and a blank array of one cell is an error where a blank cell is accepted (C81_missing_violated). Numbers that
  are no dates give the invalid date (C81_date_range_violated). The last 1e-9 of a day is read as a negative part of the next day (C81_dateTime_violated). A single blank row counts as
  a record (C81_blank_record_violated). Integer cells are read through `val.num` (C81_integer_cell_violated). A result of empty vectors only announces a row of cells without memory
  (C82_empty_vector_violated). Blank entries cut off vectors on reading back (C82_blank_entry_violated).
* Arithmetic of vectors does not check sizes: a shorter second vector is read past its end (C83_vector_arithmetic_sizes_violated), as `XRange` with no points writes outside
  (C83_xrange_none_violated). `Unique` with an order coarser than equality leaves duplicates (C83_unique_order_violated). `ZipToMap` silently drops the second value of a key
  (C83_zip_to_map_twice_violated). `AsInt` refuses the ends of the range of `int` (C83_as_int_ends_violated). Normalized vectors have norms below 1
  (C83_l1_normalized_violated) and no vector is fully correlated with itself (C83_self_correlation_violated); the covariance of nothing is 0/0 (C83_covariance_empty_violated).
* `NOTICE` of an expression that is a temporary, as in `Report_::AddHeaderRow` (report.cpp:134), keeps a reference to a value that ends with the statement; every throw below reads it
  (C84_temporary_violated). A throw without notes leaves an empty vector allocated until the next note (C84_released_violated).
* A forward rate whose start is a date-time goes through the spot date, one whose start is a date does not (C85_fixed_time_violated). Starts and maturities given in days or as
  date-times have dates but no name (C85_no_name_violated). An empty text passes the check of the maturity (C85_empty_maturity_violated). The constructor of `DF_` drops the collateral
  (C85_collateral_violated), which is not in the name either. Swaps and Libor rates can share names (C85_same_names_violated). No parser is registered for the names of rates, so they
  cannot be parsed and their indices not cloned (C85_parse_violated).
* The tail of the distribution function by splines has about twice the exponent it should (1.118 where the square of z is halved in the density): it falls below every fraction of the
  true value (C86_tail_violated). `InverseNCDF` accepts 0 and 1 and returns `NaN` for them (C86_inverse_ends_violated).
* The printed form of a script shows numbers with six decimals, so all of less than half a millionth look like zero (C87_digits_violated).
* `Store_` has no overload of `operator=` for `bool`, so members of that type are stored as numbers, which the readers of truth values reject: objects of PseudoRSG_v1 and SobolRSG_v1 can be
  written and not read (C88_bool_violated). All untagged objects of a document share one entry of the table of known objects, so the second is replaced by the first
  (C88_untagged_violated). A report without headers is written and cannot be read (C88_nonempty_violated). The check that builders are unique cannot fail, since registration drops
  later readers of the same type (C88_register_violated).
* Files of archives: a line of more than 2047 characters ends the reading without a message (C89_long_line_violated), as does a missing file, which is then read outside of an empty table
  (C89_missing_violated). Texts that are numbers or booleans are no longer texts (C89_digits_text_violated, C89_bool_text_violated), texts with commas are cut (C89_comma_violated), texts between
  `=` signs lose them (C89_equals_violated), and fractions keep six decimals (C89_small_numbers_violated).
* JSON texts of objects: random generators (C90_generators_violated) and reports with an axis (C90_reports_violated) are written and can never be read, since truth values and integers are written
  as numbers with six decimals. Names are not escaped: a quote makes the text unreadable, and a name can change the other members of the object it belongs to (C90_names_violated).
* Past fixings: a quiet call without an access object reads a null pointer (C91_quiet_violated). In JSON, fixings of the same second collapse into one (C91_subsecond_violated) and numbers lose
  their seventh decimal (C91_decimals_violated), which is a hundredth of a basis point for rates.
* Charts and matrices in sheets: fewer labels than functions or rows are read behind their end (C92_labels_violated, C92_row_labels_violated); the values of a function beyond the number of inputs
  are outside the range of the chart (C92_long_violated); a used name, such as the default one in a second call, leaves an empty sheet or an unnamed chart behind and throws
  (C92_names_violated). Matrices without labels begin one column right of the one asked for, which gets empty texts (C92_plain).
* Cells and settings: the question whether a large number is an integer throws (C93_is_int_violated); an empty entry of a setting with a default is refused (C93_empty_violated); the largest
  integer is refused (C93_unlimited_violated); numbers of more than six decimals change in text, and valid controls may then be refused (C93_text_violated); the number of backtracking tries has no
  condition, and without tries no search finds a point (C93_tries_violated).
- C94: the conditions declared for the public linear interpolators, in one and in two dimensions, are met by no points at all, and the first value asked of the object is then read outside a vector; those declared for a spline are met by one or two points, for which the constructor throws; smoothing never moves the value at the first point, whatever its weight.
- C95: the name asked for when making a generator is also its kind, so that no other name is accepted; the largest seed overflows in one of the kinds, and a seed of zero leaves one of its two recurrences at zero; clones start again and are never precise; all branches are the same; a stored generator starts again when read; the same call on the same constant object gives different numbers.
- C96: parameters whose names differ in case only share a row, with the risk of the last one; with no paths the table holds NaN and there is no error; serials outside the range of dates become the invalid date without an error, and the event is put in the past; dates given as text are macros, so that a product whose dates are all text has no events; an empty cell is a macro with an empty name, which matches everywhere.
- C97: `BachelierOpt` returns the payoff of the forward whenever forward and strike do not have the same sign, although negative spots are the reason to use it; at the money at zero it gives 0 instead of about 0.4 deviations. Beyond ten deviations it leaves out the density, by less than 1e-20 deviations. `BlackOpt` is the mean exactly outside its thresholds, and off by at most `fwd * vol` and `2 sqrt(fwd * strike)` inside them.
- **C98 (implied volatilities)**: the tolerance of the search's places is in units of the forward though the places are logarithms of volatilities, so that for large forwards the search ends far from the volatility (`C98_tolerance_violated`); an option whose price is below 1e-10 has the implied volatility e⁻¹·⁵ whatever the volatility (`C98_far_violated`); `BachelierIV` takes its guess for a logarithm (`C98_bachelier_log`, `C98_bachelier_guess_violated`) and finds nothing for forwards and strikes of opposite sign (`C98_bachelier_sign_violated`); the names given by `ParameterNames` are refused by `ParameterDerivatives` (`C98_names_violated`). That the search ends within thirty attempts is not claimed.
- **C99 (derivatives of scripts)**: nothing found; at ties (a comparison decided by equality that a small move breaks) the derivative is the one of the branch taken, see C43 and C100. `OPPow_` divides by its base, so that at a base of zero the code has no derivative (`0/0`) even where the power has one; this is excluded in the statement.
- **C100 (simulated sensitivities)**: for payoffs that jump, the mean of the derivatives computed with the exact evaluator is not the derivative of the price: for a digital option it is zero (`C100_digital_violated`); that is what the fuzzy evaluator is for.
- **C101 (smoothed sensitivities)**: nothing found beyond C34 (a negation is undefined). At the thresholds of `EPSILON` the smoothed value jumps by `EPSILON`, so that the mean derivative misses `2·EPSILON` of the whole; the theorem says so exactly.
- **C102 (error of simulated means)**: the mean is right in all cases, and the mean square error is spread over number of paths for one task (up to 1024 paths, or one thread). With two or more tasks it is not: `SkipTo` of MRG32 goes half of the way (C40) and that of IRN nowhere, so that tasks use the same numbers again; the theorems give the error exactly (one and a half times for two tasks of MRG32, twice for two threads of IRN). With IRN and doubles the result depends on which thread runs which task.
- **C103 (simulations through the bridge)**: the bridge keeps the law of the numbers for every number of steps and whatever the vector held before, so means and one-task errors are those without the bridge. The errors of several tasks remain those of C102.
- **C104 (compiled simulations with adjoints)**: the risks of the parameters of the model are the means of the derivatives along the paths, up to the cutoff of small adjoints. `ConstVar` and the instructions with a constant take the constant from `constStream_` (`compiler.hpp` 478–482 and the `...Const` cases) and never read `constVariables_`, so the risk reported for a constant variable is zero whatever the product: the strike of a call has risk zero although the price falls with it (`C104_strike_violated`). A payoff variable that is a copy of today's spot is a number before the mark, and `PropagateToMark` then starts below the mark and runs off the tape (`C104_today_violated`).
- **C105 (smoothed simulations with adjoints)**: not compiled, the constant variables are read from the tape, so their risks are right, unlike in the compiled branch (`C105_option_compiled`: same payoffs and same risks of the model, and only the strike differs). But copying a constant variable to the payoff, as in `x = K`, or through `MAX`, `MIN` and unary plus, makes the payoff a number from before the mark; `PropagateToMark` then starts below the mark and leaves the tape (`C105_copy_violated`). `Own` describes the scripts that never do so.
- **C106 (valuations with sensitivities, text to table)**: no new violation; the chain from the text of an option to the table is unbiased in every row, the strike included.
- **C107 (rolled-back prices)**: the program overwrites the edges after each step only, so that during the implicit solve the edges still hold the values of the step before: a first-order error in time even with theta one half (the term for standing edges in `C107_error`). The settings of the example (theta one half, 250 steps, spots from 0 to 500) are outside the explicit limit at high spots, and its lowest spot is zero: the bounds here hold for a positive lowest spot and within the limit; a fully implicit scheme has none.
- **C108 (band accumulator)**: `Add` saves the entry of the row, not that of the vector, before rotating (`banded.cpp` 372–374), so that the row is only rescaled: 3 and 4 accumulate to 4.2, a number and its opposite to zero (`C108_gram_violated`, `C108_cancel_violated`). The row it starts from is `size + offset`, one too far: with offsets counted from zero the first row stays empty and every solve throws (`C108_solve_violated`). Padding the vector (lines 364–365) is behind a test that cannot be reached, so fill-in left of the vector is lost. An offset too far below zero drops the vector in silence (`C108_dropped`).
- **C109 (several results)**: in the multi-result mode `PropagateToStart` and `PropagateToMark` write into the first component of the direct arguments and stop there: `Adjoint()` of every input stays what it was (`C109_single_violated`). `Number_` has no accessor for the components; seeds and results are reachable through tape iterators only. Numbers put on the tape before the switch lead to a write through a null pointer (`C109_mixed_violated`). The cutoff is applied to the components together, so that a result's sensitivities depend on which other results are propagated (`C109_columns_violated`). The resetter does not restore the mode before it (`C109_scope_violated`).
- **C110 (barrier options)**: with the default `FIXING: END` maturity is a date of the schedule as well, so that the joined text tests the barrier twice. Exactly this makes no difference; smoothed, the part that is left is squared: an option at the barrier at maturity is worth a quarter of the call rather than half (`C110_twice_violated`). `examples/uoc` is written this way.
- **C111 (products that have begun)**: past evaluation takes every spot of the past to be 30 and does not look at the stored fixings: an option with its barrier above 30 that was knocked out in the past is valued as alive, and one with its barrier at or below 30 as knocked out, whatever was fixed (`C111_history_violated`). Past events that do not look at the spot are right (`C111_blind`). As every past payment leaves a number on the evaluator's stack (C80), a product with more than 127 expired options writes past the end of it (`C111_expired_violated`).
- **C112 (`DCF`)**: `DCF(basis)` and `DCF(basis, date)` are not reported as incomplete: after the last field the parser steps over the closing parenthesis and goes on reading, past the end of the text if no comma follows (`C112_missing_violated`, `C112_missing_end_violated`), or takes the dates from outside the parentheses (`C112_outside_violated`). A fourth field is dropped without a word (`C112_extra_violated`). Dates from 2034-03-01 to 2100-02-28 are read as the day before, so that fractions come out a day short (`C112_late_violated`).
- **C32/C113 (domain analysis may throw)**: a division by a variable that is zero for certain, e.g. one not assigned yet, throws while the script is processed, even where the statement is never reached (`C32_divisor_violated`); divisions by numbers, constants and the spot never do (`C32_total`).
- **C114 (snowball)**: no violation; a spot equal to a level neither knocks in nor calls, and dates from 2034-03-01 on suffer from C112.
- **C115 (macros)**: a macro replaces its name inside other words too, up to case: the constants `KI` of the snowball example would spoil the variable `is_ki` if it were a text instead of a number (`C115_inside_words_violated`); macros are applied once each in alphabetical order, so one may use only macros that come later in the alphabet, whatever the order of the rows (`C115_order_violated`). Constants are numbered in the order in which the events use them, not in that of the table: in `examples/uoc` the barrier comes first although `STRIKE` is the first row (`C115_barrier_value`), so that what the example prints as `dP/dK` is the sensitivity to the barrier.
- **C116 (today's spot as payoff)**: a script that assigns `spot()` to its payoff on the evaluation date can be valued, but with sensitivities the payoff is the parameter's own number, which lies before the mark of the tape, and the propagation runs past it; so no simulation of it has a result, whatever the tasks (`C116_spot_violated`, `C116_simulation_violated`; the compiled case is `C104_today_violated`).
- **C117**: no violation found. The benchmark that the example prints is the mean of the simulated value, and the risks printed behind it are in the order spot, vol, rate, div, STRIKE of the header.
- **C118**: in `examples/uoc_compiled` the compiled valuation ignores the smoothing asked for (0.01) and prints under `dP/dK` the risk of the constant `BARRIER`, which is zero up to the cutoff in every compiled simulation (`C118_barrier`, `C118_constants`). With an event today the adjoints are right if the payoff is written by `PAYS` only; `C104_today_violated` is a product that assigns it.
- **C119**: over any tasks and threads the compiled valuation of `examples/uoc_compiled` is the mean of the unsmoothed payoffs and reports zero for the risks of `BARRIER` and `STRIKE`, up to the cutoff (`C119_barrier`).
- **C120**: `examples/aad` rewinds the tape to its start while its inputs are in use. It is right only because the five constructors record five nodes that nobody uses before `PutOnTape` records the inputs, and `BlackTest` records five nodes, exactly over these; a program with one node more records over its first input and the risks are wrong for every number of rounds (`C120_rewind_violated`). `BlackTest` with `is_call` false is minus the call, not the put: negative at the money (`C120_put_violated`).
- **C121**: `MultiV2` of `examples/matrix_perf` moves through a column of `b` by the rows of `a` instead of the columns of `b`: right for square results, outside of the storage for every product with more rows than columns, and wrong with fewer, whatever the dimensions (`C121_V2_violated`). `MultiV3`, `MultiV4` and `MultiV5` add to the result, unlike the first two.
