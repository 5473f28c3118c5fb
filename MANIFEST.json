{
 "claims": [
  {
   "property": "C08",
   "status": "partial",
   "theorems": [
    "Verif.C08_retrieved_partial",
    "Verif.C08_values_partial",
    "Verif.C08_fails"
   ],
   "note": "Whole runs whose assertions held: every entry is retrieved, no marker assertion of Postsolver.c fails; without columns fixed at infinity the result does not depend on what the missing entries held before. Full claim false: records of columns fixed at infinity read entries at the marker (C08_fails)."
  },
  {
   "property": "C09",
   "status": "partial",
   "theorems": [
    "Verif.C09_run_partial",
    "Verif.C09_reduced_valid_partial",
    "Verif.C09_reduced_csr"
   ],
   "note": "Whole runs whose assertions held, for every storage layout of the final rows; C09_reduced_csr: the final compaction for every layout and every marking."
  },
  {
   "property": "C10",
   "status": "proved",
   "theorems": [
    "Verif.C10_map_spec",
    "Verif.C10_map_bijective"
   ],
   "note": "Survivor maps are order-preserving bijections onto 0..n'-1."
  },
  {
   "property": "C11",
   "status": "partial",
   "theorems": [
    "Verif.C11_reads_past_Ap",
    "Verif.C11_rows_partial",
    "Verif.C11_rows_with_documented_length"
   ],
   "note": "False as stated: the code reads Ap[m+1]; negation proved, partial under one extra readable entry."
  },
  {
   "property": "C15",
   "status": "proved",
   "theorems": [
    "Verif.C15_vec_history",
    "Verif.C15_vec_contains",
    "Verif.C15_capacity_zero_fails"
   ],
   "note": ""
  },
  {
   "property": "C16",
   "status": "proved",
   "theorems": [
    "Verif.C16_transpose",
    "Verif.C16_transpose_entries"
   ],
   "note": ""
  },
  {
   "property": "C17",
   "status": "proved",
   "theorems": [
    "Verif.C17_shift_row",
    "Verif.C17_shift_row_succeeds",
    "Verif.C17_budget"
   ],
   "note": ""
  },
  {
   "property": "C18",
   "status": "partial",
   "theorems": [
    "Verif.C18_insert_or_update",
    "Verif.C18_insert_or_update_cancel",
    "Verif.C18_absent_negligible_deletes_other",
    "Verif.C18_absent_negligible_at_end_ub",
    "Verif.C18_remove_coeff_partial",
    "Verif.C18_remove_coeff_overread",
    "Verif.C18_update_row_dton_partial",
    "Verif.C18_dton_absent_negligible"
   ],
   "note": "False in three corner cases (negations proved); exact elsewhere, with nothing outside the edited range touched. C18_remove_coeff_partial covers exactly the cases that C18_remove_coeff_overread does not."
  },
  {
   "property": "C21",
   "status": "proved",
   "theorems": [
    "Verif.C21_min_activity",
    "Verif.C21_max_activity"
   ],
   "note": ""
  },
  {
   "property": "C22",
   "status": "partial",
   "theorems": [
    "Verif.C22_new_lower_bound",
    "Verif.C22_new_upper_bound",
    "Verif.C22_fixed_column",
    "Verif.C22_delete_fixed",
    "Verif.C22_ston_above",
    "Verif.C22_ston_below",
    "Verif.C22_drop_lower",
    "Verif.C22_drop_upper",
    "Verif.C22_merge",
    "Verif.C22_recount",
    "Verif.C22_coeff_change_partial",
    "Verif.C22_coeff_change_fails",
    "Verif.C22_fix_col_ston_partial",
    "Verif.C22_fix_col_ston_fails",
    "Verif.C22_run_partial",
    "Verif.C50_activities_fails"
   ],
   "note": "False as stated: two updates leave a stale or loose activity, and a dropped coefficient leaves wrong counts (C50_activities_fails; negations proved with witnesses); every other update is exact. C22_run_partial: in whole runs without singleton columns, doubleton equations and parallel rows or columns all stored activities are exact at every call of the debugger and in the result."
  },
  {
   "property": "C23",
   "status": "proved",
   "theorems": [
    "Verif.C23_check_activity",
    "Verif.C23_check_row"
   ],
   "note": "Per row, for valid activities; the tolerance on the dropped side is FEAS_TOL, as in the code."
  },
  {
   "property": "C24",
   "status": "proved",
   "theorems": [
    "Verif.C24_rhs_cell",
    "Verif.C24_lhs_cell",
    "Verif.C24_rhs_one_infinite",
    "Verif.C24_lhs_one_infinite",
    "Verif.C24_kept_point"
   ],
   "note": "Bounds written while propagating one row; bounds written for singleton rows are in C26."
  },
  {
   "property": "C26",
   "status": "proved",
   "theorems": [
    "Verif.C26_singleton_row",
    "Verif.C26_feasible_points"
   ],
   "note": "The tolerance is on the variable: the removed row may be violated by |a| times FEAS_TOL."
  },
  {
   "property": "C27",
   "status": "proved",
   "theorems": [
    "Verif.C27_empty_rows",
    "Verif.C27_empty_cols"
   ],
   "note": ""
  },
  {
   "property": "C28",
   "status": "proved",
   "theorems": [
    "Verif.C28_dual_fix"
   ],
   "note": "Per column, with the meaning of the locks as hypothesis (C25)."
  },
  {
   "property": "C29",
   "status": "partial",
   "theorems": [
    "Verif.C29_pos_inf_partial",
    "Verif.C29_neg_inf_partial",
    "Verif.C29_order_fails",
    "Verif.C29_free_row_fails"
   ],
   "note": "False as stated: columns fixed in the same call are retrieved later (negation proved on a complete run), free rows give infinite values; exact when the other values of the rows are known and no row is free."
  },
  {
   "property": "C30",
   "status": "proved",
   "theorems": [
    "Verif.C30_ston_eq",
    "Verif.C30_step"
   ],
   "note": "Exact substitution: feasible points of the two problems correspond one to one through the value the postsolver computes, objective equal; when the implied-free test fails on one side the equality becomes the matching inequality."
  },
  {
   "property": "C31",
   "status": "proved",
   "theorems": [
    "Verif.C31_ston_ineq",
    "Verif.C31_leaves_short_rows",
    "Verif.C31_step"
   ],
   "note": "For rows with consistent finite-or-infinite sides (not free) and a nonempty column box; activity equal to a recomputation."
  },
  {
   "property": "C32",
   "status": "partial",
   "theorems": [
    "Verif.C32_dton_partial",
    "Verif.C32_dton_fails"
   ],
   "note": "exact elimination unless bounds contradict; the ignored INFEASIBLE of modify_bounds is refuted on a full run; the dual side of the elimination is C53"
  },
  {
   "property": "C33",
   "status": "partial",
   "theorems": [
    "Verif.C33_parallel_rows_partial",
    "Verif.C33_order_fails",
    "Verif.C33_boundary_fails"
   ],
   "note": "exact multiples; equality in the first two places of the group; refuted for later equalities on a full run, and at an exact tolerance boundary"
  },
  {
   "property": "C34",
   "status": "partial",
   "theorems": [
    "Verif.C34_range",
    "Verif.C34_split_partial",
    "Verif.C34_chain_partial",
    "Verif.C34_merge_partial",
    "Verif.C34_split_fails",
    "Verif.C34_dual"
   ],
   "note": "range exact in all cases; split needs 0 within the bounds of j when the merged column is free (the code saves the tag after the merge), refuted otherwise on a full run; costs exactly proportional"
  },
  {
   "property": "C35",
   "status": "proved",
   "theorems": [
    "Verif.C35_dominated",
    "Verif.C35_step"
   ],
   "note": ""
  },
  {
   "property": "C36",
   "status": "partial",
   "theorems": [
    "Verif.C36_groups",
    "Verif.C36_complete_partial",
    "Verif.C36_complete_fails",
    "Verif.C36_hashSupp",
    "Verif.C36_hashCoef"
   ],
   "note": "completeness needs that no other row collides with both hashes; refuted with the hashes of the code; C36_hashSupp and C36_hashCoef: the hashes are 32-bit integers congruent to the djb2 polynomial of the columns and of the scaled, rounded coefficients"
  },
  {
   "property": "C43",
   "status": "proved",
   "theorems": [
    "Verif.C43_tags",
    "Verif.C43_faithful"
   ],
   "note": ""
  },
  {
   "property": "C14",
   "status": "proved",
   "theorems": [
    "Verif.C14_read",
    "Verif.C14_replay"
   ],
   "note": ""
  },
  {
   "property": "C13",
   "status": "proved",
   "theorems": [
    "Verif.C13_pure",
    "Verif.C13_history",
    "Verif.C13_reference"
   ],
   "note": "for logs whose indices are in range"
  },
  {
   "property": "C12",
   "status": "proved",
   "theorems": [
    "Verif.C12_status"
   ],
   "note": "Went down means differs here; that the counts never grow is C37."
  },
  {
   "property": "C39",
   "status": "proved",
   "theorems": [
    "Verif.C39_boundary",
    "Verif.C39_guarantees"
   ],
   "note": ""
  },
  {
   "property": "C42",
   "status": "proved",
   "theorems": [
    "Verif.C42_calls",
    "Verif.C42_all_off",
    "Verif.C42_finite_ub",
    "Verif.C42_finite_lb"
   ],
   "note": ""
  },
  {
   "property": "C38",
   "status": "proved",
   "theorems": [
    "Verif.C38_one_outcome",
    "Verif.C38_no_race",
    "Verif.C38_ends",
    "Verif.C38_order"
   ],
   "note": "Programs of both threads are trees of single reads and writes; allocation inside the threads is left out (see C40)."
  },
  {
   "property": "C40",
   "status": "partial",
   "theorems": [
    "Verif.C40_reported_partial",
    "Verif.C40_not_reported",
    "Verif.C40_failure_kinds",
    "Verif.C40_realloc_exits"
   ],
   "note": "False of the code for 44 of the 66 allocation calls (C40_not_reported gives the list and witnesses); proved for the remaining 22. One failing call at a time; sizes are not modelled."
  },
  {
   "property": "C41",
   "status": "partial",
   "theorems": [
    "Verif.C41_released",
    "Verif.C41_free_null",
    "Verif.C41_two_runs_leak"
   ],
   "note": "Proved when the reduced problem is built at most once; a second run_presolver leaks (C41_two_runs_leak)."
  },
  {
   "property": "C20",
   "status": "proved",
   "theorems": [
    "Verif.C20_delete",
    "Verif.C20_any_marking",
    "Verif.C20_reachable",
    "Verif.C20_storage",
    "Verif.C20_trivial_storage",
    "Verif.C20_trivial_first"
   ],
   "note": "One deletion from any state of the invariant GI (which holds for every matrix and every marking); C20_reachable: whole runs and any order of explorer calls in which the assertions hold. C20_storage: the array code (cells moved one by one, ranges shrunk, any gaps) never leaves an array and computes the same. C20_trivial_storage: a whole call of run_trivial_explorers run in the arrays (close bounds, dual fixing, singleton rows, empty rows and columns) never leaves an array and refines the list version, if the assertions hold; both copies agree afterwards."
  },
  {
   "property": "C25",
   "status": "proved",
   "theorems": [
    "Verif.C25_locks",
    "Verif.C25_reachable"
   ],
   "note": "Along every sequence of the elementary steps of Verif.Inv.Step; C25_reachable: whole runs and any order of explorer calls in which the assertions hold."
  },
  {
   "property": "C37",
   "status": "proved",
   "theorems": [
    "Verif.C37_no_fill",
    "Verif.C37_stats",
    "Verif.C37_counters"
   ],
   "note": "C37_stats needs no assertion; no_fill and counters assume the assertions of the code held."
  },
  {
   "property": "C44",
   "status": "proved",
   "theorems": [
    "Verif.C44_empty_listed",
    "Verif.C44_short_rows"
   ],
   "note": "Any order of explorer calls in which the assertions hold."
  },
  {
   "property": "C45",
   "status": "proved",
   "theorems": [
    "Verif.C45_defined"
   ],
   "note": "Whole runs; the tracked undefined operations are listed in DESIGN.md."
  },
  {
   "property": "C01",
   "status": "partial",
   "theorems": [
    "Verif.C01_run_partial",
    "Verif.C01_simple_partial",
    "Verif.C01_fails",
    "Verif.C01_emptied_fails",
    "Verif.C01_simple_fails"
   ],
   "note": "Whole runs, every reduced point, every history, when the assertions held and nothing was rounded. False as stated for release builds: an empty column with equal bounds is counted twice in the offset, also when it became empty and its bounds equal during the run."
  },
  {
   "property": "C02",
   "status": "partial",
   "theorems": [
    "Verif.C02_run_partial",
    "Verif.C02_simple_partial",
    "Verif.C02_stale_activity_fails",
    "Verif.C33_order_fails",
    "Verif.C34_split_fails",
    "Verif.C32_dton_fails",
    "Verif.C29_order_fails",
    "Verif.C46_stale_singleton_fails",
    "Verif.C54_singleton_fails"
   ],
   "note": "C02_run_partial: whole runs with every mix of primal propagation, dual fixing, bound tightening and relaxed bounds, without singleton columns, doubleton equations and parallel rows or columns, assertions held, no column fixed to an infinite value. Every feasible reduced point is postsolved to numbers within FEAS_TOL of the bounds and FEAS_TOL*(1+2*norm1 of the row) of the sides. C02_simple_partial: the same with the hypothesis on the assertions discharged by C49_partial. False as stated for all settings: whole runs that return infeasible points. Per reduction see C26-C35. Each of the four excluded reductions makes it false: doubletons with propagation (C02_stale_activity_fails) or with singleton columns (C46_stale_singleton_fails), singleton columns alone on a row without finite sides (C54_singleton_fails), parallel rows (C33) and parallel columns (C34)."
  },
  {
   "property": "C03",
   "status": "partial",
   "theorems": [
    "Verif.C03_run_partial",
    "Verif.C03_doubletons_partial",
    "Verif.C03_fails",
    "Verif.C33_boundary_fails",
    "Verif.C03_stale_activity_fails"
   ],
   "note": "False as stated (tolerances; and, far from any tolerance, a stale activity after a doubleton elimination: C03_stale_activity_fails). Proved for two kinds of whole runs when assertions held and no column was fixed by tolerance or to infinity: with primal propagation and without doubletons (C03_run_partial), and with doubletons and without primal propagation when no nonzero coefficient was dropped (C03_doubletons_partial); both without singleton columns and parallel rows/columns. Per reduction see C23, C24, C26, C27, C33."
  },
  {
   "property": "C04",
   "status": "partial",
   "theorems": [
    "Verif.C04_run_partial",
    "Verif.C04_doubletons_partial",
    "Verif.C04_fails"
   ],
   "note": "False as stated (coefficients up to ZERO_TOL are dropped). Proved for the same two kinds of runs as C03 (C04_run_partial, C04_doubletons_partial); per reduction see C27, C28, C31, C35."
  },
  {
   "property": "C46",
   "status": "partial",
   "theorems": [
    "Verif.C46_run_partial",
    "Verif.C46_doubletons_partial",
    "Verif.C46_simple_partial",
    "Verif.C46_stale_activity_fails",
    "Verif.C46_stale_singleton_fails"
   ],
   "note": "False as stated with doubletons and primal propagation together (C46_stale_activity_fails: a bound derived from a stale activity cuts off all optimal points). Proved for the same two kinds of whole runs as C03: with primal propagation and without doubletons (C46_run_partial), and with doubletons and without primal propagation (C46_doubletons_partial, which also says that the postsolved values are numbers). With doubletons and singleton columns together it is false without propagation as well (C46_stale_singleton_fails), with parallel rows or columns see C33 and C34."
  },
  {
   "property": "C05",
   "status": "partial",
   "theorems": [
    "Verif.C05_run_partial",
    "Verif.C05_fails",
    "Verif.C05_parcols_fails",
    "Verif.C05_dropped_fails"
   ],
   "note": "Whole runs with parallel rows and columns off in which no coefficient below ZERO_TOL is dropped: stationarity of the reduced problem gives stationarity in every original column. All three conditions are needed: C05 is false with parallel rows (C05_fails), with parallel columns (C05_parcols_fails) and when a coefficient is dropped (C05_dropped_fails)."
  },
  {
   "property": "C06",
   "status": "partial",
   "theorems": [
    "Verif.C06_run_partial",
    "Verif.C06_doubletons_partial",
    "Verif.C06_doubletons_optimal_partial",
    "Verif.C06_propagation_partial",
    "Verif.C06_propagation_optimal_partial",
    "Verif.C06_propagation_simple_partial",
    "Verif.C06_simple_partial",
    "Verif.C06_optimal_partial",
    "Verif.C06_sign_fails",
    "Verif.C05_fails",
    "Verif.C06_bound_lower",
    "Verif.C06_bound_upper",
    "Verif.C05_parcols_fails",
    "Verif.C05_dropped_fails"
   ],
   "note": "Whole runs of empty rows and columns, columns with equal bounds, singleton rows and dual fixing (bound relaxation free), assertions held, nothing rounded: every KKT point of the reduced problem is postsolved to an exact KKT point of the original one, hence an optimal point (weak duality proved in Spec/Kkt). With primal propagation (implied bounds, forcing rows, redundant rows and sides) as well, provided that the postsolved x is feasible, which holds only up to a tolerance in general. False as stated with singleton columns (C06_sign_fails: a row turned into an equality without record gets a dual of the wrong sign) and with parallel rows (C05_fails: a KKT point of the reduced problem is mapped to a point that is not one). With doubleton equalities as well (C06_doubletons_partial, no feasibility assumed), provided that no coefficient that is not zero was dropped; without that and with parallel columns it is false (C05_dropped_fails, C05_parcols_fails). Missing: runs with propagation and doubletons together (stored activities can then be stale, see C02_stale_activity_fails)."
  },
  {
   "property": "C07",
   "status": "partial",
   "theorems": [
    "Verif.C07_run_partial",
    "Verif.C07_main_loop",
    "Verif.C07_needs_noFill"
   ],
   "note": "Whole runs end within 3 nnz + 2 rounds when the assertions hold; inner loops only while no bad status was found. C07_main_loop: arbitrary explorers that do not add nonzeros."
  },
  {
   "property": "C47",
   "status": "proved",
   "theorems": [
    "Verif.C47_choice"
   ],
   "note": ""
  },
  {
   "property": "C49",
   "status": "partial",
   "theorems": [
    "Verif.C49_partial",
    "Verif.C49_unbounded_fails",
    "Verif.C49_infeasible_fails",
    "Verif.C49_tolerance_fails"
   ],
   "note": "C49_partial: whole runs of the simple reductions (dual fixing, close bounds, singleton rows, empty rows and columns, activities, primal propagation, deletions) that end without a verdict, send no column to infinity and fix no column twice: no assertion fails, any environment and number of rounds. False as stated: witnesses for unbounded and infeasible problems and for bounds exactly the tolerance apart here, for problems without verdict that fix a column twice in C01_fails, C01_emptied_fails, C01_simple_fails."
  },
  {
   "property": "C48",
   "status": "proved",
   "theorems": [
    "Verif.C48_initial_state"
   ],
   "note": ""
  },
  {
   "property": "C19",
   "status": "proved",
   "theorems": [
    "Verif.C19_ptr_shrink",
    "Verif.C19_shrink_idx_vector"
   ],
   "note": ""
  },
  {
   "property": "C50",
   "status": "partial",
   "theorems": [
    "Verif.C50_debugger_partial",
    "Verif.C50_calls",
    "Verif.C50_last",
    "Verif.C50_activities_partial",
    "Verif.C50_activities_fails"
   ],
   "note": "All settings, every call of the debugger reached with the earlier assertions satisfied, for LPs whose left sides are not +inf and right sides not -inf. The check of activities (verify_activities) can fail after a doubleton equation drops a small coefficient (C50_activities_fails); it is proved without singleton columns, doubleton equations and parallel rows or columns (C50_activities_partial). Missing: the layout of the arrays."
  },
  {
   "property": "C51",
   "status": "proved",
   "theorems": [
    "Verif.C51_boundChange",
    "Verif.C51_fixedCol",
    "Verif.C51_run",
    "Verif.C51_calls",
    "Verif.C51_result"
   ],
   "note": "all settings, no hypothesis on the assertions; the substitution of doubleton equations, which lists rows only when it recomputes an activity, is covered by the second part only"
  },
  {
   "property": "C52",
   "status": "proved",
   "theorems": [
    "Verif.C52_run",
    "Verif.C52_calls",
    "Verif.C52_result"
   ],
   "note": "all settings; assertions held"
  },
  {
   "property": "C53",
   "status": "proved",
   "theorems": [
    "Verif.C53_step",
    "Verif.C53_explorer",
    "Verif.C53_first"
   ],
   "note": "states reached by any order of explorer calls; assertions held, nothing rounded; the bounds of the replaced column are not claimed (C32_dton_fails)"
  },
  {
   "property": "C54",
   "status": "partial",
   "theorems": [
    "Verif.C54_numbers_partial",
    "Verif.C54_offset_iff_partial",
    "Verif.C54_records_partial",
    "Verif.C54_singleton_fails",
    "Verif.C54_free_row_fails"
   ],
   "note": "Proved for whole runs with all settings except singleton columns and parallel columns, assertions held, no column fixed to an infinite value or at nearly equal bounds. False for a column fixed to an infinite value whose row has no finite side (C54_free_row_fails, an assertion fails there). C54_records_partial: all settings (also singleton and parallel columns), if the sides and finite bounds in the records are numbers; C54_singleton_fails: a singleton column substituted out of a row without finite sides is postsolved to an infinite value though all assertions hold."
  },
  {
   "property": "C55",
   "status": "partial",
   "theorems": [
    "Verif.C55_space_check",
    "Verif.C55_substitution_partial",
    "Verif.C55_explorer_partial",
    "Verif.C55_first_explorer_partial",
    "Verif.C55_overread",
    "Verif.C55_fresh_fails"
   ],
   "note": "The space check is proved in full. The substitution is proved to refine the list version (which C32, C53 and C03 reason about), except that remove_coeff reads one cell too many when the staying column ends at the end of the allocation (C55_overread), and in a row that gets a new cell the value must not be negligible (known failure, C18_absent_negligible_deletes_other). The whole explorer (all rounds, with the rows put aside and the new doubletons) is proved to refine the list version for the answers that the space check gives, or to stop at exactly that over-read; there the negligible value is excluded by the code's own assertions on the list run, which are a hypothesis. The full claim is false: C55_fresh_fails gives a valid problem whose freshly built arrays the explorer leaves in the first cycle, with all settings switched on."
  }
 ]
}
