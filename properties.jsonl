{"id": "C01", "title": "Objective value is preserved through presolve and postsolve", "statement": "Take any LP handed to new_presolver and let run_presolver produce a reduced problem with costs c' and obj_offset. For every vector x' of reduced length, the original objective c.x at the vector x returned by postsolve equals c'.x' + obj_offset.", "quantifier": "every LP, every settings value, every reduced vector x' (feasible or not), every sequence of reductions the presolver happens to apply", "why_tests_cant": "The offset is the result of an unbounded history of fixings, substitutions and merges; tests compare a few final offsets and cannot cover every interleaving of reductions nor every x'.", "anchors": ["include/PSLP/PSLP_API.h: PresolvedProblem.obj_offset", "src/core/Problem.c: fix_var_in_obj, sub_var_in_obj", "src/explorers/SimpleReductions.c: delete_fixed_cols_from_problem, remove_empty_cols", "src/explorers/DtonsEq.c: subst_col_in_obj_dton", "src/core/Postsolver.c: postsolver_run"]}
{"id": "C02", "title": "Postsolved primal point is feasible for the original problem", "statement": "If x' satisfies the bounds and rows of the reduced problem then the x returned by postsolve satisfies the bounds and rows of the original problem, up to the documented feasibility tolerance per removed row or bound.", "quantifier": "every LP, every settings value, every feasible x' of the reduced problem, every history of reductions", "why_tests_cant": "Feasibility has to hold for a continuum of reduced points and for every order in which reductions stack up; a test fixes one point and one order.", "anchors": ["src/core/Postsolver.c: postsolver_run, retrieve_*", "src/explorers/*.c"]}
{"id": "C03", "title": "An INFEASIBLE answer is never given for a feasible problem", "statement": "If run_presolver returns INFEASIBLE then no x satisfies all bounds and rows of the original problem.", "quantifier": "every LP, every settings value, every history of reductions before the detection point", "why_tests_cant": "A test can only show the answer is right on chosen infeasible inputs; a false INFEASIBLE on some feasible input is a statement about all inputs.", "anchors": ["src/core/CoreTransformation.c: update_lb, update_ub, fix_col, change_lhs_of_ineq, change_rhs_of_ineq", "src/explorers/SimpleReductions.c: remove_empty_rows, remove_stonrow, check_activity", "src/explorers/Primal_propagation.c", "src/explorers/Parallel_rows.c: process_single_bin"]}
{"id": "C04", "title": "An UNBNDORINFEAS answer is never given for a problem that has an optimal solution", "statement": "If run_presolver returns UNBNDORINFEAS then the original problem has no optimal solution: it is infeasible, or its objective is unbounded below on the feasible set.", "quantifier": "every LP, every settings value", "why_tests_cant": "Needs a ray argument valid for every feasible point of every problem on which the verdict is given.", "anchors": ["src/explorers/Simple_dual_fix.c: _simple_dual_fix", "src/explorers/SimpleReductions.c: remove_empty_cols", "src/explorers/StonCols.c: process_colston_ineq, fix_col_ston", "src/explorers/Parallel_cols.c: process_single_bin"]}
{"id": "C05", "title": "Postsolved duals are stationary for the original problem", "statement": "If the reduced duals satisfy z' = c' - A'^T y' then the (y,z) written by postsolve satisfy z = c - A^T y for the original A and c, in every original column.", "quantifier": "every LP, every (y',z') with that identity, every history of reductions", "why_tests_cant": "An algebraic identity over unboundedly long histories; tests check a few numeric instances.", "anchors": ["src/core/Postsolver.c: retrieve_fix_col, retrieve_sub_col, retrieve_added_row, retrieve_added_rows, retrieve_bound_change, retrieve_lhs_change, retrieve_rhs_change, retrieve_eq_to_ineq, retrieve_parallel_col"]}
{"id": "C06", "title": "Postsolved duals keep sign conditions and complementary slackness", "statement": "If (x',y',z') satisfies the KKT sign and complementarity conditions of the reduced problem then the postsolved triple satisfies those of the original problem, so an optimal reduced solution yields an optimal original solution.", "quantifier": "every LP and every KKT point of the reduced problem", "why_tests_cant": "Optimality of the recovered solution must hold for all KKT points and all stacks of reductions, including degenerate ones a test does not hit.", "anchors": ["src/core/Postsolver.c: retrieve_*"]}
{"id": "C07", "title": "Presolve terminates", "statement": "run_presolver returns after finitely many explorer calls even when no time limit fires.", "quantifier": "every LP, every settings value, every outcome of every explorer call that does not add nonzeros", "why_tests_cant": "Non-termination is not observable by a finite test and the loop is driven by data-dependent progress tests.", "anchors": ["src/core/Presolver.c: run_presolver, update_termination, update_complexity", "src/explorers/StonCols.c: remove_ston_cols", "src/explorers/SimpleReductions.c: remove_ston_rows", "src/explorers/DtonsEq.c: remove_dton_eq_rows"]}
{"id": "C08", "title": "Postsolve defines every entry of the solution", "statement": "After postsolve every entry of x (original length), y and z has been assigned a value computed from the reduced solution and the recorded reductions; no entry is left at the not-yet-retrieved marker, and no retrieval step reads a primal entry that is still at the marker.", "quantifier": "every LP, every history of reductions, every reduced solution", "why_tests_cant": "Whether a later-replayed record reads an entry that an earlier-replayed record has to define depends on the whole order of reductions.", "anchors": ["src/core/Postsolver.c: copy_reduced_sol_to_orginal, postsolver_run"]}
{"id": "C09", "title": "The reduced matrix handed to the user is a valid CSR matrix", "statement": "After a successful run_presolver, Ap[0]=0, Ap is nondecreasing, Ap[m]=nnz, every column index is in [0,n), indices inside a row are strictly increasing, and row r of the reduced matrix is the r-th surviving original row restricted to surviving columns, renumbered.", "quantifier": "every LP and every set of surviving rows and columns, all row lengths and all gaps between rows", "why_tests_cant": "Compaction moves overlapping memory regions; its correctness depends on all layouts of gaps produced by earlier edits.", "anchors": ["src/core/Matrix.c: remove_extra_space", "src/core/Presolver.c: populate_presolved_problem", "src/core/Constraints.c: constraints_clean"]}
{"id": "C10", "title": "Surviving variables keep their values; index maps are order-preserving bijections", "statement": "The map from surviving original columns (rows) to reduced columns (rows) is strictly increasing and onto 0..n'-1 (0..m'-1), removed ones map to -1, and postsolve copies x'[map j], z'[map j], y'[map i] to the surviving positions before any retrieval.", "quantifier": "every set of surviving rows and columns", "why_tests_cant": "There are exponentially many survivor patterns.", "anchors": ["src/core/Matrix.c: remove_extra_space", "src/core/Postsolver.c: postsolver_update, copy_reduced_sol_to_orginal"]}
{"id": "C11", "title": "User arrays are only read, and only inside the documented lengths", "statement": "new_presolver never writes to Ax, Ai, Ap, lhs, rhs, lbs, ubs, c and reads Ap only at 0..m, Ai/Ax only at 0..nnz-1, row vectors only at 0..m-1, column vectors only at 0..n-1.", "quantifier": "every m, n, nnz and every input matrix", "why_tests_cant": "Out-of-bounds reads of neighbouring heap memory are normally invisible to a passing test.", "anchors": ["src/core/Presolver.c: new_presolver", "src/core/Matrix.c: matrix_new_no_extra_space"]}
{"id": "C12", "title": "The returned status is one of the four documented values and agrees with what happened", "statement": "run_presolver returns UNCHANGED, REDUCED, INFEASIBLE or UNBNDORINFEAS; INFEASIBLE/UNBNDORINFEAS exactly if some explorer reported it; otherwise REDUCED iff the number of rows, columns or nonzeros went down.", "quantifier": "every combination of explorer results and every settings value", "why_tests_cant": "Statuses are combined with bitwise or over unboundedly many calls.", "anchors": ["include/PSLP/PSLP_status.h", "src/core/Presolver.c: final_status, run_trivial_explorers, run_fast_explorers, run_medium_explorers, run_presolver"]}
{"id": "C13", "title": "Postsolve is a pure function of its arguments", "statement": "The solution produced by postsolve depends only on the reduced x,y,z passed in and on the presolve run, not on earlier postsolve calls; calling it again with the same arguments gives the same result.", "quantifier": "every sequence of postsolve calls with arbitrary arguments", "why_tests_cant": "All call histories.", "anchors": ["src/core/Presolver.c: postsolve", "src/core/Postsolver.c: postsolver_run, copy_reduced_sol_to_orginal"]}
{"id": "C14", "title": "The postsolve log round-trips", "statement": "Replaying the flat log (types, starts, indices, vals) visits exactly the recorded reductions with exactly the recorded data, in reverse order, for every mixture of record kinds.", "quantifier": "every finite sequence of recorded reductions with records of any length", "why_tests_cant": "Offsets into shared flat arrays depend on all earlier record lengths.", "anchors": ["src/core/Postsolver.c: save_retrieval_*, postsolver_run", "include/core/Postsolver.h"]}
{"id": "C15", "title": "Growable vectors never lose or invent elements", "statement": "After any sequence of append, append_array and clear operations that succeed, a vector holds exactly the appended elements since the last clear in order, and len <= capacity; every write is inside the allocated buffer.", "quantifier": "every operation history and every initial capacity", "why_tests_cant": "Reallocation points depend on the full history.", "anchors": ["include/data_structures/Vec_macros.h"]}
{"id": "C16", "title": "Transpose is exact and stays inside its allocation", "statement": "transpose(A) has entry (j,i,v) exactly when A has entry (i,j,v), its rows are sorted, each row has the documented spare space, and no write leaves the allocated region.", "quantifier": "every CSR matrix", "why_tests_cant": "Counting-sort index arithmetic over all sparsity patterns.", "anchors": ["src/core/Matrix.c: transpose, calc_memory, calc_memory_row, count_rows"]}
{"id": "C17", "title": "Making room in a row never changes any row's contents", "statement": "shift_row either reports failure and leaves the matrix unchanged, or leaves every row's list of (index,value) pairs unchanged, keeps rows disjoint and inside the allocation, and gives the requested row the requested spare space; the rows it moves hold together at most max_shift entries.", "quantifier": "every layout of rows and gaps, every row, every requested space and shift limit", "why_tests_cant": "Overlapping memmoves over all gap layouts.", "anchors": ["src/core/Matrix.c: shift_row"]}
{"id": "C18", "title": "Setting, adding or deleting one coefficient affects only that coefficient", "statement": "insert_or_update_coeff and remove_coeff change exactly the addressed coefficient of the addressed row, keep indices sorted, and never touch other rows or memory outside the row.", "quantifier": "every matrix, row, column and value, including values that cancel to zero", "why_tests_cant": "Position arithmetic inside an arbitrary sorted row; cancellation to zero is a corner that tests rarely hit.", "anchors": ["src/core/Matrix.c: insert_or_update_coeff, remove_coeff", "src/explorers/DtonsEq.c: update_row_A_dton"]}
{"id": "C19", "title": "In-place shrinking of side arrays keeps exactly the surviving entries in order", "statement": "Sides, bounds, tags, costs and index lists after clean-up are exactly the entries of surviving rows/columns, in order, and work lists refer to renumbered surviving indices.", "quantifier": "every survivor pattern and every array contents", "why_tests_cant": "In-place compaction over all patterns.", "anchors": ["src/core/utils.c", "src/core/State.c: clean_state", "src/core/Constraints.c: bounds_shrink, constraints_clean", "src/core/Problem.c: problem_clean"]}
{"id": "C20", "title": "Deleting inactive rows and columns keeps A and its transpose in agreement", "statement": "After pending deletions are carried out, A and A^T represent the same matrix, contain no entry of a removed row or column, all other entries are unchanged, and the nonzero count and row/column sizes are exact.", "quantifier": "every matrix and every set of rows and columns marked for deletion", "why_tests_cant": "All deletion patterns and all row layouts.", "anchors": ["src/core/Constraints.c: delete_inactive_rows, delete_inactive_cols_from_A_and_AT"]}
{"id": "C21", "title": "Row activity bounds are the exact extreme values over the box", "statement": "The stored minimal/maximal activity with zero infinite contributions equals the minimum/maximum of the row over all points within the variable bounds; with k infinite contributions exactly k terms are unbounded in that direction.", "quantifier": "every row and every bounds", "why_tests_cant": "Continuum of points in the box and all sign/infinity patterns.", "anchors": ["src/core/Activity.c: Activity_init, compute_min_act_*, compute_max_act_*"]}
{"id": "C22", "title": "Incremental activity updates agree with recomputation", "statement": "After any sequence of bound changes, column fixings and coefficient changes, the stored activities equal those recomputed from scratch.", "quantifier": "every history of updates", "why_tests_cant": "All histories; errors only show when a stale value is later used.", "anchors": ["src/core/Activity.c: update_act_bound_change, update_activities_bound_change, update_activities_fixed_col, update_activity_coeff_change"]}
{"id": "C23", "title": "Constraints are only dropped when the bounds already imply them", "statement": "When presolve drops a side of a constraint or a whole constraint as redundant, every point within the current bounds satisfies the dropped side with violation at most the feasibility tolerance.", "quantifier": "every row, every bounds, every point in the box", "why_tests_cant": "Universally quantified over points.", "anchors": ["src/explorers/SimpleReductions.c: check_activity, check_activities, remove_empty_rows"]}
{"id": "C24", "title": "Bound tightening never cuts off a feasible point", "statement": "Whenever presolve replaces a variable bound by one derived from a constraint, every point feasible before the change is feasible after it; tightening a doubleton or singleton row's bound is exact and never tighter than the row implies.", "quantifier": "every row, every sign and infinity pattern, every feasible point", "why_tests_cant": "Universally quantified over feasible points and patterns.", "anchors": ["src/explorers/Primal_propagation.c: bound_tightening_single_row_rhs, bound_tightening_single_row_lhs", "src/explorers/SimpleReductions.c: remove_stonrow", "src/core/CoreTransformation.c: update_lb, update_ub"]}
{"id": "C25", "title": "Lock counts are exact", "statement": "The number of up/down locks used to decide dual fixing equals the number of constraints that block increasing/decreasing the variable, after any sequence of coefficient deletions and side changes.", "quantifier": "every matrix and every history of updates", "why_tests_cant": "All histories of incremental counter updates.", "anchors": ["src/core/Locks.c", "include/core/Locks.h"]}
{"id": "C26", "title": "Singleton rows are turned into equivalent bounds", "statement": "Removing a row with one variable and moving it into the bounds (or fixing the variable) keeps exactly the same set of feasible points up to the feasibility tolerance, or reports infeasibility only if there is none.", "quantifier": "every singleton row, coefficient sign, side pattern and bounds", "why_tests_cant": "All sign, infinity and value combinations.", "anchors": ["src/explorers/SimpleReductions.c: remove_stonrow, remove_ston_rows"]}
{"id": "C27", "title": "Empty rows and columns are removed soundly", "statement": "An empty row is dropped only if 0 lies between its sides (up to tolerance) and otherwise the problem is infeasible; an empty column is set to a cost-minimizing value inside its bounds, or the problem is unbounded or infeasible.", "quantifier": "every sides, bounds and cost", "why_tests_cant": "All combinations of infinite/finite bounds and cost signs.", "anchors": ["src/explorers/SimpleReductions.c: remove_empty_rows, remove_empty_cols"]}
{"id": "C28", "title": "Dual fixing keeps an optimal solution", "statement": "If a variable is fixed because of its cost sign and locks then every feasible point can be changed in that variable only to the fixed value without losing feasibility and without increasing the objective.", "quantifier": "every problem and every feasible point", "why_tests_cant": "Exchange argument over all feasible points.", "anchors": ["src/explorers/Simple_dual_fix.c"]}
{"id": "C29", "title": "Variables fixed at infinity get finite values satisfying all removed rows", "statement": "A cost-free variable that can be moved to infinity takes its rows out of the problem; postsolve then finds a finite value within its bounds at which all those rows hold, whatever values the other variables take.", "quantifier": "every set of such variables sharing rows in any way, all values of the other variables", "why_tests_cant": "All sharing patterns and all values.", "anchors": ["src/core/CoreTransformation.c: fix_col_to_negative_inf, fix_col_to_positive_inf", "src/core/Postsolver.c: retrieve_fix_col_inf", "src/explorers/Simple_dual_fix.c: simple_dual_fix"]}
{"id": "C30", "title": "Implied-free column singletons in equalities are substituted exactly", "statement": "Eliminating a (one- or two-sided) implied free column singleton from an equality row gives a problem whose feasible points are exactly the projections of the original feasible points, with equal objective, and postsolve recovers the unique value of the variable.", "quantifier": "every row, coefficient signs, bounds, costs, feasible points", "why_tests_cant": "Equivalence of feasible sets (a continuum).", "anchors": ["src/explorers/StonCols.c: process_colston_eq, handle_impl_free_from_above_eq, handle_impl_free_from_below_eq", "src/core/CoreTransformation.c: implied_free_from_above_by_row, implied_free_from_below_by_row"]}
{"id": "C31", "title": "Column singletons in inequalities are handled without losing optimality", "statement": "When a column singleton in an inequality is fixed, its row turned into an equality, or both removed, at least one optimal solution survives and the recovered point is feasible with equal objective.", "quantifier": "every row, signs, bounds, costs", "why_tests_cant": "Exchange argument over all feasible points.", "anchors": ["src/explorers/StonCols.c: process_colston_ineq, fix_col_ston"]}
{"id": "C32", "title": "Doubleton equality elimination is exact", "statement": "Eliminating a variable through a two-variable equality keeps the feasible set (projected), the objective and transfers the eliminated variable's bounds to the remaining one.", "quantifier": "every doubleton equality, every other row, bounds and costs", "why_tests_cant": "Equivalence of feasible sets and unbounded number of rows containing the eliminated variable.", "anchors": ["src/explorers/DtonsEq.c: find_substitution, modify_bounds, execute_substitution, update_row_A_dton, update_lhs_and_rhs, subst_col_in_obj_dton"]}
{"id": "C33", "title": "Parallel rows are merged into their intersection", "statement": "Replacing a group of scalar-multiple rows by one row keeps exactly the points satisfying all of them, or reports infeasibility when no value of the row satisfies all.", "quantifier": "every group size, every mixture and order of equalities and inequalities, every ratio sign", "why_tests_cant": "Depends on the order of the group; all orders and sizes.", "anchors": ["src/explorers/Parallel_rows.c: process_single_bin"]}
{"id": "C34", "title": "Parallel columns are merged into their sum and split back within bounds", "statement": "Merging two proportional columns with proportional costs gives the exact range of the combined variable, and postsolve splits any value in that range into values inside both original bounds with the same combined contribution and cost.", "quantifier": "every bounds pattern incl. infinite bounds, ratio sign, combined value, and chains of merges", "why_tests_cant": "Continuum of values and all bound patterns.", "anchors": ["src/explorers/Parallel_cols.c: process_single_bin", "src/core/Postsolver.c: retrieve_parallel_col"]}
{"id": "C35", "title": "Dominated parallel columns are fixed without losing optimality", "statement": "When one of two proportional columns is strictly cheaper and can absorb the other, fixing the other at its bound keeps an optimal solution; if that bound is infinite the problem has no optimal solution.", "quantifier": "every pair, ratio sign, costs, bounds, feasible points", "why_tests_cant": "Exchange argument over all feasible points.", "anchors": ["src/explorers/Parallel_cols.c: process_single_bin"]}
{"id": "C36", "title": "Rows reported as parallel are found exactly by normalized comparison", "statement": "Grouping puts two active rows into one group only if their sparsity pattern and normalized coefficients hash equally, every group has at least two members, groups are disjoint, and every pair of exactly proportional rows ends up in the same group.", "quantifier": "every matrix, every order of the sort", "why_tests_cant": "All matrices; hash grouping over unbounded sizes.", "anchors": ["src/explorers/Parallel_rows.c: find_parallel_rows, find_parallel_rows_in_bin, compute_supp_and_coeff_hash, get_bin_size"]}
{"id": "C37", "title": "Presolve never increases the number of nonzeros and the statistics add up", "statement": "Every explorer leaves the number of nonzeros of A unchanged or smaller, and nnz_original - nnz_reduced equals the sum of the per-phase removal counters after a run.", "quantifier": "every LP, every sequence of phases", "why_tests_cant": "Telescoping over unbounded histories.", "anchors": ["src/core/Presolver.c: run_*_explorers, run_presolver", "src/explorers/DtonsEq.c: execute_substitution", "include/PSLP/PSLP_stats.h"]}
{"id": "C38", "title": "Concurrent initialization has one outcome", "statement": "new_presolver initializes data in two threads; for every interleaving of their steps the resulting presolver is the same, and no memory location written by one thread is accessed by the other before they join.", "quantifier": "every schedule of the two threads, every input size", "why_tests_cant": "Schedules cannot be enumerated by tests.", "anchors": ["src/core/Presolver.c: init_thread_func, new_presolver", "include/core/pslp_thread.h"]}
{"id": "C39", "title": "Stopping on the time limit is safe at every point", "statement": "Whatever the clock reports, run_presolver stops only between explorer phases and its result satisfies the same guarantees as a complete run.", "quantifier": "every sequence of clock readings", "why_tests_cant": "All clock behaviours.", "anchors": ["src/core/Presolver.c: update_termination, run_presolver, run_medium_explorers"]}
{"id": "C40", "title": "Allocation failure is reported, not fatal", "statement": "If any allocation inside new_presolver fails then new_presolver returns NULL, every block allocated so far is freed exactly once and no null or freed pointer is dereferenced.", "quantifier": "every allocation index at which the failure occurs", "why_tests_cant": "Tests do not inject failure at every allocation.", "anchors": ["src/core/Presolver.c: new_presolver, presolver_clean_up", "src/core/Workspace.c: new_work", "src/core/State.c: new_state, free_state"]}
{"id": "C41", "title": "Freeing a presolver releases every block exactly once", "statement": "free_presolver(NULL) is a no-op; for a presolver returned by new_presolver (before or after run_presolver and postsolve) it frees each owned block exactly once and nothing else.", "quantifier": "every sequence of API calls before the free", "why_tests_cant": "Ownership over all call histories.", "anchors": ["src/core/Presolver.c: free_presolver, free_settings", "src/core/Problem.c: free_problem", "src/core/State.c: free_state"]}
{"id": "C42", "title": "Disabled reductions have no effect", "statement": "If a reduction is switched off in the settings no reduction of that kind is applied: with everything switched off the reduced problem is the original one up to the always-on clean-ups.", "quantifier": "every settings value and every LP", "why_tests_cant": "All settings combinations times all LPs.", "anchors": ["src/core/Presolver.c: set_settings_true, set_settings_false, run_trivial_explorers, run_fast_explorers, run_medium_explorers"]}
{"id": "C43", "title": "Input classification is faithful", "statement": "A row is treated as equality, one-sided, ranged or free exactly according to lhs/rhs, a side or variable bound is treated as infinite exactly when it is the IEEE infinity of that side (no threshold), and the problem described by the tags has the same feasible points and objective as the input.", "quantifier": "every lhs, rhs, lb, ub including infinities", "why_tests_cant": "All value combinations.", "anchors": ["src/core/Tags.c: new_rowtags", "src/core/Presolver.c: init_thread_func", "include/core/Numerics.h"]}
{"id": "C44", "title": "Work lists are complete for empty rows and columns and sound for short rows", "statement": "Between explorer calls every remaining row (column) without entries is on the list of empty rows (columns), every row on the singleton list has at most one entry and every row on the doubleton list at most two.", "quantifier": "every LP, every sequence of explorer calls in which the assertions of the code hold", "why_tests_cant": "The lists are maintained incrementally by a dozen reductions; a missing entry only shows on particular histories.", "anchors": ["src/core/Debugger.c:92-145: verify_empty_rows, verify_empty_cols", "src/core/Matrix.c: remove_coeff", "src/core/Problem.c: delete_inactive_cols_from_A_and_AT", "src/core/State.c"]}
{"id": "C45", "title": "No undefined access and no endless inner loop in a completed run", "statement": "In a run that does not end with INFEASIBLE or UNBNDORINFEAS and whose assertions hold, no coefficient is looked up that is not stored, no first entry of an empty row or column is read, no stale cells are copied into the postsolve log, and the inner do-while loops (singleton rows, singleton columns, doubleton rows, propagation rounds) end.", "quantifier": "every LP, every settings value, every memory layout, hash and sort outcome", "why_tests_cant": "Out-of-row reads stay inside the allocation and are silent; loops are data dependent.", "anchors": ["src/core/Postsolver.c: save_retrieval_fixed_col_inf", "src/explorers/Parallel_cols.c: process_single_bin", "src/explorers/StonCols.c", "src/explorers/DtonsEq.c: find_and_execute_substitution", "src/explorers/Primal_propagation.c"]}
{"id": "C46", "title": "An optimal solution of the reduced problem becomes an optimal solution of the original problem", "statement": "If run_presolver completes and x is an optimal solution of the reduced problem, then the postsolved point has an objective at most that of every feasible point of the original problem (and is feasible up to tolerance, C02); if the original problem is feasible then so is the reduced problem.", "quantifier": "every LP, every settings value, every optimal solution of the reduced problem, every feasible point of the original problem, every history of reductions", "why_tests_cant": "A reduction that cuts off all optimal points of some input still gives feasible answers; comparing with every feasible point of every input cannot be sampled.", "anchors": ["src/core/Presolver.c: run_presolver, postsolve", "src/explorers/Simple_dual_fix.c: _simple_dual_fix", "src/explorers/Primal_propagation.c", "src/explorers/SimpleReductions.c", "src/core/CoreTransformation.c"]}
{"id": "C47", "title": "Which variable of a doubleton equality is eliminated", "statement": "When the doubleton explorer decides to substitute in a row of length two, the row consists of exactly the two chosen cells, both columns are active, the ratio of the coefficients lies in [1/1000, 1000], a singleton column stays only if the other column is a singleton as well, otherwise a substitution with a whole coefficient is preferred, and if neither criterion decides the longer column stays.", "quantifier": "every state of the solver, every row of length two, every free space in the transpose", "why_tests_cant": "The criteria interact; which variable goes is visible only in sparsity and numerical quality, never as a wrong answer of a test.", "anchors": ["src/explorers/DtonsEq.c: find_substitution", "src/explorers/DtonsEq.c: can_dton_be_eliminated"]}
{"id": "C48", "title": "The two initialization threads build the state in which the reductions start", "statement": "When both threads of new_presolver have finished, row tags, column tags, bounds, sides, locks, activities, row and column sizes and the transposed matrix in memory are those defined by the problem: tags by infinite or equal sides and bounds, locks by counting, activities by summing over the bounds, columns by collecting the entries in row order with the prescribed spare room.", "quantifier": "every LP, every position of the rows in memory, every rule for spare room, every schedule of the two threads", "why_tests_cant": "Each test runs a few schedules of a few inputs; a wrong tag or lock changes only which reductions fire.", "anchors": ["src/core/Presolver.c: new_presolver, init_thread_func", "src/core/Tags.c: new_rowtags", "src/core/Locks.c: new_locks", "src/core/Activity.c: new_activities", "src/core/Matrix.c: transpose, count_rows"]}
{"id": "C49", "title": "The assertions of a debug build hold", "statement": "No assert of the presolve code fails: lists of empty, singleton and doubleton rows and columns hold only what they are meant to hold, columns are fixed only while active and nonempty, tags agree with infinite bounds and sides when activities are updated, sizes count the live entries when rows and columns are deleted.", "quantifier": "every valid LP, all settings, every environment and every number of rounds", "why_tests_cant": "An assertion depends on what earlier reductions left behind; a debug build stops only on the inputs tried, and a release build silently continues with broken state.", "anchors": ["src/core/CoreTransformation.c: fix_col, update_lb, update_ub, set_row_to_inactive", "src/core/Matrix.c, src/core/Workspace.c: deletion", "src/explorers/SimpleReductions.c, src/explorers/Simple_dual_fix.c, src/explorers/Primal_propagation.c: assertions", "src/core/Presolver.c: run_trivial_explorers"]}
{"id": "C50", "title": "The consistency checks of debug builds never fail", "statement": "Every call of run_debugger (after new_presolver, at the start of run_presolver, after the trivial explorers of every phase, and on the result) succeeds: recorded row and column sizes are the true ones, A and its transpose agree and contain nothing deleted, locks count the blocking rows, the lists of empty, singleton and doubleton rows and of empty and singleton columns contain exactly what they should (none missing), no list has duplicates, nothing is left to do when the run is finished, activities and row tags agree with bounds and sides.", "quantifier": "every valid LP, all settings, every environment, every number of rounds, every call of the debugger reached without an earlier failing assertion", "why_tests_cant": "A list that misses one row only matters on inputs where a later reduction needed it; the debugger is compiled out of release builds and sees only the inputs tried.", "anchors": ["src/core/Debugger.c: run_debugger, verify_*", "src/core/Presolver.c: run_presolver (lines 673, 696, 743), new_presolver (320)", "src/core/Matrix.c, src/core/Workspace.c: lists filled during deletion", "src/explorers/*.c: lists filled by the reductions"]}
{"id": "C51", "title": "No row with a changed activity is forgotten", "statement": "update_activities_bound_change and update_activities_fixed_col put a row on the list of updated activities whenever its minimal or maximal activity changes while it is finite or becomes finite, the row is not already waiting, and never put a row there twice. In every run the list has no repetitions and holds exactly the rows whose activity is marked as waiting for propagation in this round.", "quantifier": "every LP, all settings, every environment, every number of rounds, every order of the explorers; every state and column for the two functions", "why_tests_cant": "A row that is not listed is silently not propagated: the result is valid but weaker, so a test that compares results cannot tell a forgotten row from a row with nothing to find; a row listed twice only costs time.", "anchors": ["src/core/Activity.c: update_activities_bound_change, update_activities_fixed_col, update_act_bound_change", "src/core/CoreTransformation.c: callers", "src/explorers/Primal_propagation.c: check_activities, propagate_primal"]}
{"id": "C52", "title": "Row tags say which sides are infinite", "statement": "At every call of the debugger and after any sequence of reductions, an active row is tagged as having an infinite left (right) side exactly when the side is minus (plus) infinity, and an active row with two equal finite sides is tagged as an equality.", "quantifier": "every LP whose left sides are not +inf and right sides not -inf, all settings, every environment, every number of rounds, every order of the explorers, assertions held", "why_tests_cant": "Tags and sides are written in a dozen places; a tag that is left behind by one of them only matters when another reduction later tests the tag of that row.", "anchors": ["src/core/CoreTransformation.c: change_rhs_of_ineq, change_lhs_of_ineq", "src/explorers/SimpleReductions.c, StonCols.c, DtonsEq.c, Parallel_rows.c: sides and tags", "src/core/Debugger.c: verify_row_tags"]}
{"id": "C53", "title": "Doubleton elimination carries optimality conditions back", "statement": "Take any values, duals and reduced costs that satisfy the optimality conditions (stationarity and complementary slackness of rows and bounds) of the problem left by the elimination of doubleton equalities. The records written by the explorer turn them into a solution of the optimality conditions of the problem before it: the dual of the removed equality absorbs the reduced cost that sits at an implied bound, the reduced cost moves to the bound of the replaced column, and the replaced column gets the value for which the equality holds.", "quantifier": "every LP, every state reached by explorer calls in any order, every number of substitutions and rounds, every choice of the column to replace, every solution of the optimality conditions (feasible or not); assertions held, no coefficient rounded away", "why_tests_cant": "Whether the dual of the removed row is right depends on which of the implied bounds is active at the solution, on the signs of both coefficients and on records of later substitutions into the same rows; a run exercises one combination.", "anchors": ["src/explorers/DtonsEq.c: modify_bounds, execute_substitution, remove_dton_eq_rows__", "src/core/Postsolver.c: retrieve_sub_col, retrieve_deleted_row, retrieve_added_row, retrieve_bound_change"]}
{"id": "C54", "title": "Numbers are postsolved to numbers", "statement": "If the offset of the objective reported by the presolver is a number, then every solution of the reduced problem with finite primal values is postsolved to finite values for every original column; no infinity and no NaN enters. If nothing was rounded, the converse holds too.", "quantifier": "every LP with finite coefficients (infinite sides and bounds allowed), all settings, every environment, every number of rounds, every point of the reduced problem (feasible or not), all duals", "why_tests_cant": "Which records carry an infinite bound or side depends on the order of reductions; a single infinite value that is read back is invisible unless the test happens to fix that column at an infinite bound.", "anchors": ["src/core/Postsolver.c: retrieve_fix_col, retrieve_sub_col", "src/explorers/SimpleReductions.c: delete_fixed_cols_from_problem, remove_empty_cols, remove_ston_rows", "src/core/CoreTransformation.c: fix_col, fix_col_to_negative_inf, fix_col_to_positive_inf"]}
{"id": "C55", "title": "Eliminating a doubleton equality stays inside the storage", "statement": "The space check before a substitution computes the exact fill-in of the column that stays, never leaves the arrays, leaves the matrix unchanged when it answers no, and when it answers yes has kept every column and made enough room. After a positive answer the whole substitution (removing the row from the staying column, rewriting every row of the substituted column, inserting or updating the transposed cells while the old cells of the substituted column are still being read) runs to its end without leaving the arrays or overwriting another row or column, and its result is the mathematical substitution.", "quantifier": "every storage layout (any gaps), every pair of sorted columns of any length, every answer of the floating-point shift heuristics, every shift limit, every state of the other data", "why_tests_cant": "A fill-in that is one too small overwrites the first cell of the next column only when the gap is exactly used up; with the generous gaps of a fresh matrix no test reaches that layout.", "anchors": ["src/explorers/DtonsEq.c:41-91 sufficient_space_AT", "src/explorers/DtonsEq.c:488-648 execute_substitution", "src/core/Matrix.c: shift_row, remove_coeff, insert_or_update_coeff", "src/explorers/DtonsEq.c: update_row_A_dton"]}
