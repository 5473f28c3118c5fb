# Design of the formal model of PSLP

Everything here is about the C sources in `/repo` (dance858/PSLP, pinned commit).
The model is written in Lean 4 (4.33.0) with Mathlib, under `lean/Verif/`.
The exact theorem names per property are in `MANIFEST.json`; the statements are in
`lean/Verif/Props/`.

## 1. Trusted base

* The Lean 4 kernel.
* Axioms: every theorem depends only on `propext`, `Classical.choice`, `Quot.sound`
  (Lean's and Mathlib's standard ones; some theorems on fewer).  No own axioms, no
  `sorry`, no `native_decide`, no `bv_decide`.  Concrete runs used as witnesses are
  evaluated by the kernel (`decide +kernel`).
* The faithfulness of the hand-written model to the C text.  Every model definition
  cites file and lines and says what was simplified.
* Numbers.  A finite C `double` is modelled by an exact rational (`ℚ`); **rounding is
  not modelled**.  Bounds, sides, activities and the offset have type `D`: a rational,
  `+∞`, `-∞` or NaN with the IEEE rules for the special values.  Coefficients and costs
  are rationals.  Structural code (vectors, matrix layout, logs, maps) is modelled for an
  arbitrary value type, so those theorems hold for real doubles as well.
* Tolerances are *not* idealised away: `FEAS_TOL = 1e-6`, `ZERO_TOL = 1e-10`, … are the
  constants of the code, and several negation theorems are about them.
* Integers.  C `int`/`size_t` are unbounded `ℕ`/`ℤ`; overflow of index arithmetic is not
  modelled (more than 2^31 nonzeros is out of scope).  The hash functions do model the
  32-bit wrap (`Model/Hash`).
* Memory.  Arrays are contents plus an allocated length.  Where the C code may leave an
  array the model has a distinct *undefined behaviour* outcome.
* The parallel arrays `A->i`, `A->x` are always moved together by the code; the model
  keeps one list of pairs.
* Build flavour: release build (`NDEBUG`).  Assertions are not executed; the model keeps
  track of whether they would have held (see 3).
* Not modelled: printing, the parts of Debugger.c that `run_debugger` does not call,
  tests, `qsort` internals (any sorted permutation is allowed), the OS thread library (only interleavings of the two initialization
  threads), the values of timers (the clock is an arbitrary oracle).

## 2. Layout

* `Verif/Spec/`   small independent specification: numbers, LP, feasibility, objective,
  stationarity, optimality.
* `Verif/Model/`  the code, function by function.
* `Verif/Lemmas/` helper lemmas about the model.
* `Verif/Inv/`    invariants of the whole presolver and the decomposition of runs.
* `Verif/Props/`  property theorems `Cxx_…`, with an `example` next to each.

### Model files and what they cover

| file | source |
|------|--------|
| Vec, Mat, Shrink, Log, PostBuf | growable vectors; CSR with gaps, `shift_row`, `insert_or_update_coeff`, `remove_coeff`, `remove_extra_space`, `transpose`; shrinking; the flat postsolve log; postsolve into the caller's reused buffers (layer L, storage) |
| State, Core, Activity, Delete | presolver data, `fix_col*`, `change_lhs/rhs`, locks, activities, deletion of rows and columns (layer H) |
| DelMat | deletion of rows and columns once more, on the arrays of `A` and `AT` (layer L) |
| Debug | the checks of `run_debugger` |
| Simple, Ston, Dton, ParRows, ParCols, PrimProp | one file per explorer |
| Driver | `new_presolver` (initial state), the trivial loops, fast/medium phases, `run_presolver` |
| Trace, Loop, Stats | `runPresolver` with the list of explorer calls; the main loop over arbitrary explorers; the statistics record |
| Postsolve, Marks | the retrieval functions and the replay; the same with the markers `COL_NOT_RETRIEVED`/`ROW_NOT_RETRIEVED` and their assertions made explicit |
| Reduced | `populate_presolved_problem` |
| Hash | support and coefficient hashes of rows and columns |
| Heap | allocation, failure and ownership trace of `new_presolver` … `free_presolver` |
| Threads | the two initialization threads as trees of single reads and writes |

Layer L is connected with layer H by the statements themselves: rows of layer H are the
lists of cells that the storage functions are proved to maintain (C16–C20), the
initial state is what the thread programs are proved to leave in memory (C48), and
`C09_run_partial` quantifies over every storage layout of the final rows.

### The environment

`Env` collects what the model leaves open: the results of sorting (any function
satisfying `Env.SortOK`, i.e. a sorted permutation of the keys it is given) and the clock.
Theorems quantify over all environments.  `envEx` is a concrete one for examples.

## 3. Ghost state

* `undef` — sticky flag, set at the operations of layer H that could be undefined
  behaviour in C: the row lists read by `save_fixed_col_inf` (Core), an absent column
  searched in a row (Ston, Dton), a doubleton row with fewer than two cells (Dton), an
  empty row or column in a bin (ParRows, ParCols), an index outside a row while
  propagating (PrimProp), a singleton column without cell (Ston); and when one of the
  fuel-bounded inner loops runs out of fuel (Driver, Dton, Ston, PrimProp).  C45 shows
  that it is never set along runs in which the assertions hold, hence the fuel is never
  the reason for stopping either.
* `asrt` — becomes false when an assertion of the code that the model tracks fails
  (about seventy; grep `.check` in `Verif/Model`).  Execution continues, as in a release
  build.  Whole-run theorems assume `asrt = true` at the end; `C01_fails` shows a run
  on which an assertion fails in a release build and the result is wrong.
* `tiny` — set when a nonzero coefficient of size at most `ZERO_TOL` is dropped or when
  columns are merged that are parallel only up to the tolerances.
* `near` — set when a column is fixed although its bounds are only equal up to the
  tolerance, and when a column is fixed to an infinite value.  C03, C04 and C46 assume
  that it is not set; C02 does not need it.

Indices outside the arrays are inactive in `initSt` (rows and columns are functions on
`ℕ`), so quantifications over all active rows are quantifications over the arrays.

## 4. From explorers to whole runs

1. `GI` (Inv/Gi): the global invariant of the state: sizes, tags, pending lists, both
   copies of the matrix agree, sorted, in range, nonzero count, locks.
2. `Raw μ s s'` (Inv/Step): one elementary step; seventeen kinds (fix, fix at infinity,
   drop a row, change sides, singleton row, empty row/column, the singleton-column
   reductions, a group of propagated bounds, doubleton, merge, relax a bound, delete
   rows, delete columns).  A step says exactly what happens to matrix, sides, bounds,
   tags, costs, offset and log.  `Mode μ` says which inexact kinds, merges and substitutions of
   singleton columns may occur.
3. `Inv/*Good`: every explorer, as modelled, is a sequence of elementary steps
   (`Run μ s s'`) as long as the assertions hold; `runPresolver_run` for whole runs,
   `Reach`/`Calls` for any order of explorer calls.
4. `Inv/Replay`: an abstract interpreter of the log (`Interp`) and the scheme
   `Backward I μ R`: a relation between state, vector and result of replay that is
   carried backwards over each elementary step.  Instances: objective (Inv/Obj, C01),
   stationarity (Inv/Stat, StatStep, C05), markers (Inv/Mark, C08), pairs of vectors
   (Inv/Pair, C08).
5. `Inv/Mono`: nonzeros never grow, giving C07 and C37.
6. `Inv/Feas*`: the forward invariant `Feas P s` between a state and the original
   problem (C02): every bound and side of `P` is still in the state, shifted by the
   columns that are gone, or follows from the bounds of the state up to a multiple of
   `FEAS_TOL`; stored activities are exact.  `replay_x` reads off the postsolved `x`.

7. `Inv/Live*`: the forward invariant `Live P v s`: the state still has a feasible
   point, with the recorded values in the columns that are gone, whose objective in `P`
   is at most `v`.  Started from any feasible point of `P`; `KeepsPt` for every explorer
   of the fragment of 6 (C03, C46).  An `UNBNDORINFEAS` verdict yields a column that is a
   ray of `P` itself (`Cur.unbounded`, C04).
8. `Inv/Comp*`: the relation `Comp P X s σ`: the duals in `σ` are stationary at `s` and
   satisfy the sign and complementarity conditions of `P` at the final primal point `X`
   for every row and column still active in `s`.  `Back P s t` carries it from the state
   after a step to the state before it; singleton rows need a run of several records at
   once (C06).
9. `Inv/Asrt*`: the forward invariant `W P s`: no assertion has failed, and what the
   assertions of the next explorer need (work lists without repetitions, finite updated
   activities, equality tags that tell the truth).  Every explorer of the fragment of 6
   keeps it, or records a column twice (`Dup`), when it returns no verdict (C49).  This
   discharges the hypothesis "no assertion failed" of C01, C02, C06 and C46 for these
   settings (`…_simple_partial`).
10. `Inv/Queued*`: `Queued s`: the lists of singleton rows, doubleton equalities and
   singleton columns miss nothing.  Kept by every explorer as long as the assertions
   hold (`Keep`); with `GI` and `Em` it yields the checks of the debugger (C50).
11. `Inv/Listed*`: `UpdOK s` (the list of updated activities agrees with the statuses) and
   `TagOK s` (row tags agree with sides), kept by every explorer (`Lup`; C50, C51, C52).
12. `Inv/Pt*` and `Inv/Fw*`: relations between two states that do not mention the original
   problem, so that they compose across substitutions.  `PtBack s t` carries optimality
   conditions from `t` back to `s` (C06 with doubletons).  `Fwd s t` carries feasible points
   from `s` to `t` without raising the objective, and directions in which the objective
   falls for ever from `t` to `s` (C03, C04, C46 with doubletons).

## 5. Defects of the code

Reading the code produced inputs on which a property is false.  The negation is proved
with a concrete witness (`…_fails…`), usually a complete run, and the strongest true
statement that we could prove is kept as `…_partial`, whose docstring says what is
missing.

| finding | theorem |
|---------|---------|
| an empty column with equal bounds is counted twice in the offset | C01_fails |
| the same for a column that gets equal bounds and loses its entries during the run | C01_emptied_fails, C01_simple_fails |
| an unbounded empty column or an infeasible problem trips an assertion of the next explorer | C49_unbounded_fails, C49_infeasible_fails |
| an empty column whose bounds cross by exactly the tolerance trips the assertion of `fix_col` | C49_tolerance_fails |
| stale maximum activity after a coefficient change drops a row that is needed | C02_stale_activity_fails, C22_coeff_change_fails |
| stale maximum activity: a feasible problem is declared infeasible, or all its optimal points are cut off, far from any tolerance | C03_stale_activity_fails, C46_stale_activity_fails |
| `fix_col` for singleton columns leaves a loose activity | C22_fix_col_ston_fails |
| feasible problem declared infeasible (a column is fixed within the tolerance) | C03_fails |
| parallel rows at an exact tolerance boundary | C33_boundary_fails |
| coefficients up to 1e-10 are dropped, bounded problem declared unbounded | C04_fails |
| the dual of a merged pair of parallel rows is lost | C05_fails |
| splitting a merged column sets its reduced cost to zero whatever the cost is | C05_parcols_fails |
| dropping a small coefficient of an eliminated column breaks stationarity and leaves wrong counts in the activities | C05_dropped_fails, C50_activities_fails |
| an inequality is turned into an equality without record, its dual comes back with the wrong sign | C06_sign_fails |
| columns fixed at infinity are retrieved before columns their rows need | C29_order_fails, C08_fails |
| free rows send a column to ±∞ | C29_free_row_fails |
| INFEASIBLE from `modify_bounds` is ignored by doubletons | C32_dton_fails |
| parallel rows: an equality in a later place of the group | C33_order_fails |
| parallel columns: the tag is saved after the merge | C34_split_fails |
| two rows with colliding hashes are missed | C36_complete_fails |
| `new_presolver` reads `Ap[m+1]` | C11_reads_past_Ap |
| an absent negligible coefficient deletes another one or reads past the end | C18_absent_negligible_deletes_other, C18_absent_negligible_at_end_ub, C18_remove_coeff_overread, C18_dton_absent_negligible |
| eliminating doubletons reads behind the end of freshly built arrays, with default reductions, in the first cycle | C55_fresh_fails, C55_overread |
| zero capacity vectors | C15_capacity_zero_fails |
| 44 of 66 failing allocations are not reported; a second run leaks | C40_not_reported, C41_two_runs_leak |

Also seen while reading, without theorem: the casts in `IS_INTEGRAL` and in the hashes
are undefined for large values; `verbose = false` still prints in two places;
`remove_redundant_bounds` only sets tags in a release build, the bounds are handed out
unchanged; `remove_extra_space` has an unreachable branch.

## 6. Validation of the model

* The seventeen problems of `tests/test_postsolve.h` were transcribed and run through
  the model (`#eval`): reduced problems and postsolved vectors agree with the expected
  values in those tests.
* Seeded faults: `seeded/LOG.jsonl` lists edits of the model that imitate realistic
  bugs, the theorems that stopped proving, and the theorems that were tightened because
  of an edit that had survived.

## 7. Plan and result per property

| id | what is modelled | how it is proved |
|----|------------------|------------------|
| C01 | records, replay, objective updates of every reduction | `objBackward` over whole runs when assertions held and nothing was rounded; negation |
| C02 | replay, rows and bounds of every reduction | `Feas` invariant over whole runs without singleton columns, doubletons and parallel rows/columns; negations for complete runs with them |
| C03 | every place that returns INFEASIBLE | `Live` invariant over whole runs of the fragment of C02, nothing fixed by tolerance; `Fwd` over whole runs with doubletons and without propagation; per guard otherwise (C23, C24, C26, C27, C33); negations because of tolerances and of a stale activity |
| C04 | every place that returns UNBNDORINFEAS | exact ray of the original problem, same two kinds of runs as C03; per guard otherwise (C27, C28, C31, C35); negation with doubletons |
| C05 | dual retrieval of each record kind | `statBackward` over whole runs without parallel rows/columns and without dropped coefficients; a negation for each of the three |
| C06 | dual retrieval | `Comp` carried backwards over whole runs of the exact reductions (empty rows and columns, equal bounds, singleton rows, dual fixing), hence optimality by weak duality; with primal propagation too when the postsolved point is feasible (`GroupBack`: each group of bounds implied by one row is undone as a unit, the row's dual takes over the reduced cost); with doubleton equalities instead of propagation, the conditions of the problem that is left (`KktP`, removed columns that are still listed count with their value) are carried backwards explorer by explorer (`PtBack`), no feasibility is needed; negation with singleton columns (C06_sign_fails) and with parallel rows (C05_fails); for one tightened bound on rows of any length, C06_bound_lower/upper |
| C07 | driver loops, inner loops | measure (nonzeros, phase); whole runs end within 3 nnz + 2 rounds |
| C08 | markers, replay | `markBackward`: every entry retrieved; `pairBackward`: no dependence on unretrieved entries; negation for columns fixed at infinity |
| C09 | `remove_extra_space`, `populate_presolved_problem` | loop invariant for all layouts; whole runs via `GI` |
| C10 | maps, copy of the reduced solution | induction on the prefix |
| C11 | `matrix_new_no_extra_space` with a bounded array reader | refuted: reads `Ap[m+1]`; partial: all other reads in range |
| C12 | status arithmetic and driver | case analysis, induction over calls |
| C13 | postsolve into a mutable solution buffer | equality of results from any two buffers |
| C14 | flat log save/replay | round trip by induction over the history |
| C15 | growable vector | refinement to list append, all histories |
| C16 | `transpose` | counting-sort loop invariants |
| C17 | `shift_row` | loop invariants, all layouts; the moved rows hold no more entries than the limit (C17_budget) |
| C18 | coefficient edits | sorted-list refinement; negations |
| C19 | shrink loops | in-place loop = filter |
| C20 | deletion of rows and columns | loop = filter, both copies agree; reachable states; the array code refines the list version (C20_storage); a whole call of the trivial explorers in the arrays (Model/TrivMat) refines the list version (C20_trivial_storage) |
| C21 | activity computation | extreme value over the box |
| C22 | activity updates | equality with recomputation, per update and in whole runs of the simple settings; three negations |
| C23 | `check_activity` and callers | from C21 |
| C24 | propagation | every sign/infinity case |
| C25 | locks | equality with a recount, all reachable states |
| C26 | `remove_stonrow` | feasible-set equality up to the stated tolerance |
| C27 | empty rows/columns | case analysis |
| C28 | dual fix | exchange argument |
| C29 | fix to infinity + retrieval | exact for known values; negations |
| C30, C31 | singleton columns | projection / exchange; for the two processing functions and for the loop body that chooses between them (C30_step, C31_step) |
| C32 | doubleton elimination | projection; negation |
| C33 | parallel rows | intersection; negations |
| C34, C35 | parallel and dominated columns | range, split, reduced costs of merged columns (C34_dual), exchange; negation |
| C36 | grouping by hashes | sorted-list grouping; negation for colliding hashes |
| C37 | statistics | telescoping, nonzeros never grow |
| C38 | two threads | footprints disjoint, all interleavings |
| C39 | clock oracle | all theorems quantify over it |
| C40, C41 | allocation/ownership trace | all failure points; negations |
| C42 | driver with settings | explorers called |
| C43 | tag computation | case analysis |
| C44 | work lists | every short row/empty column is listed, any order of calls |
| C45 | `undef` | never set along runs whose assertions hold |
| C46 | as C02, reduced problem | `Live` invariant: objective of the postsolved optimum; `Fwd` and C01 with doubletons; same two kinds of runs as C03; negation with doubletons and propagation (stale activity) |
| C47 | doubleton equality, choice of the variable | refinement against a list of the criteria (coefficient sizes, column lengths, pivot ratio) |
| C48 | two threads, `new_rowtags`, `new_locks`, `new_activities`, `transpose` | loop invariants on the thread programs, combined by C38: every schedule leaves the arrays of `initSt` |
| C49 | the tracked `assert`s of the presolve code as a ghost flag (`St.check`) | `W` invariant over whole runs of the fragment of C02 that find no verdict and fix no column twice; negations |
| C50 | `run_debugger` as Boolean checks (Model/Debug), `mainLoop` collecting the states it is called on | `Queued` invariant through all explorers; the checks follow from `GI`, `Em`, `Queued`, `UpdOK` and `TagOK`; removing parallel rows empties no column (Inv/ParRowsEmpty); negation for the activities |
| C51 | `update_activities_bound_change`, `update_activities_fixed_col`; the list of updated activities | per function against a small spec (`ListsNews`); `UpdOK` carried through all explorers (`Lup`) |
| C52 | tags and sides of rows | `TagOK` carried through all explorers (`Lup`) |
| C53 | optimality conditions `KktAt s σ` of the problem left in a state | `KktAt` taken back over `modify_bounds` (bound moved to the row) and `execute_substitution`, then over steps, rounds and the loop; the reached states come from `Calls.run` and `Lup` |
| C54 | offset, pending fixed columns, postsolved values | relation `NumRel` carried back over the elementary steps (`numBackward`): a value that is not a number leaves an offset that is not a number; all settings under a condition on the records (`finBackward`); negations for a column fixed to an infinite value and a singleton column of a row without finite sides |
| C55 | `sufficient_space_AT`, `execute_substitution`, `find_substitution`, `remove_dton_eq_rows` on the arrays of `A` and `AT` | merge-loop induction for the fill-in; loop invariant over the cells of the old column (`Beside`: everything outside the staying column's slot unchanged); refinement to the list version; the whole explorer by induction over rows and rounds, where the answers of the space check in the arrays are collected into the oracle `Env.space` of the list version |

Nothing in the list was found not to be expressible.
