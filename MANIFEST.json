{
 "claims": [
  {
   "property": "C01",
   "status": "proved",
   "theorems": [
    "Seyfert.Linalg.enumeration_map_cross",
    "Seyfert.Linalg.enumeration_map_auto",
    "Seyfert.Linalg.enumeration_map_error",
    "Seyfert.Linalg.triangle_indices"
   ],
   "note": ""
  },
  {
   "property": "C02",
   "status": "proved",
   "theorems": [
    "Seyfert.Linalg.unvecp_vecp",
    "Seyfert.Linalg.vecp_unvecp",
    "Seyfert.Linalg.vecp_error",
    "Seyfert.Linalg.unvecp_error",
    "Seyfert.Linalg.unvec_vec",
    "Seyfert.Linalg.vec_unvec",
    "Seyfert.Linalg.unvec_error"
   ],
   "note": "Entries in any field where 2 is not 0; square roots in the size computations are exact."
  },
  {
   "property": "C03",
   "status": "proved",
   "theorems": [
    "Seyfert.Linalg.duplication_spec",
    "Seyfert.Linalg.elimination_spec",
    "Seyfert.Linalg.elimination_duplication",
    "Seyfert.Linalg.commutation_spec",
    "Seyfert.Linalg.commutation_involutive"
   ],
   "note": "Identities of matrices are stated as actions on every vector of the right length. For transition_matrix see C154."
  },
  {
   "property": "C04",
   "status": "partial",
   "theorems": [
    "Seyfert.Keys.key_recognised",
    "Seyfert.Keys.key_conversion",
    "Seyfert.Keys.key_reverse",
    "Seyfert.Keys.key_auto_and_invalid_kind",
    "Seyfert.Keys.key_accepted_partial",
    "Seyfert.Keys.key_rejection_false",
    "Seyfert.Keys.probe_name_conversion",
    "Seyfert.Keys.probe_name_accepted",
    "Seyfert.Keys.probe_name_equality",
    "Seyfert.Keys.key_from_parts"
   ],
   "note": "Everything is proved for well written keys. The rejection clause is false: only the start of the text is matched, so malformed text such as 'phphjunk' is accepted (negation proved)."
  },
  {
   "property": "C05",
   "status": "partial",
   "theorems": [
    "Seyfert.Keys.key_equality_partial",
    "Seyfert.Keys.key_equivalence_partial",
    "Seyfert.Keys.key_equality_false"
   ],
   "note": "Proved for well written keys. False for accepted malformed keys: equality is not symmetric and disagrees with the hash (negation proved)."
  },
  {
   "property": "C06",
   "status": "proved",
   "theorems": [
    "Seyfert.Keys.smart_lookup",
    "Seyfert.Keys.smart_lookup_reversed",
    "Seyfert.Keys.smart_lookup_ells",
    "Seyfert.Keys.tuple_lookup",
    "Seyfert.Keys.tuple_lookup_reversed",
    "Seyfert.Keys.flex_lookup",
    "Seyfert.Keys.flex_lookup_notation"
   ],
   "note": ""
  },
  {
   "property": "C07",
   "status": "partial",
   "theorems": [
    "Seyfert.DataVector.dv_built",
    "Seyfert.DataVector.dv_name_round_trip_partial",
    "Seyfert.DataVector.dv_name_round_trip_false",
    "Seyfert.DataVector.dv_brief_round_trip_partial",
    "Seyfert.DataVector.dv_string_round_trip",
    "Seyfert.DataVector.dv_name_injective"
   ],
   "note": "The round trips through name and brief string fail for the empty data vector only (negation proved); injectivity of names and the full string round trip hold for all."
  },
  {
   "property": "C08",
   "status": "partial",
   "theorems": [
    "Seyfert.DataVector.dv_equality_false",
    "Seyfert.DataVector.dv_equality_prefix_partial",
    "Seyfert.DataVector.dv_equality_partial"
   ],
   "note": "False: comparison stops at the shorter list (negation proved). Exact behaviour proved; the claim holds for equal lengths."
  },
  {
   "property": "C09",
   "status": "proved",
   "theorems": [
    "Seyfert.Fisher.add_spec",
    "Seyfert.Fisher.sub_spec",
    "Seyfert.Fisher.add_order_independent",
    "Seyfert.Fisher.sub_order_independent",
    "Seyfert.Fisher.add_comm_content",
    "Seyfert.Fisher.add_assoc_content",
    "Seyfert.Fisher.sub_self_zero",
    "Seyfert.Fisher.add_sub_cancel_entries",
    "Seyfert.Fisher.add_frame",
    "Seyfert.Fisher.sub_frame",
    "Seyfert.Fisher.combineH_extends"
   ],
   "note": "Operands unchanged: add_frame, sub_frame on the heap. The nuisance flag of operands is lost in sums (add_forgets_flag)."
  },
  {
   "property": "C10",
   "status": "proved",
   "theorems": [
    "Seyfert.Fisher.margInPlace_spec",
    "Seyfert.Fisher.margCopy_spec",
    "Seyfert.Fisher.marg_unknown",
    "Seyfert.Fisher.marg_singular",
    "Seyfert.Fisher.marg_marg",
    "Seyfert.Fisher.marg_posDef",
    "Seyfert.Fisher.marg_nuisance_copy"
   ],
   "note": "All parts proved for well-formed matrices. What happens when the second inversion raises is C58."
  },
  {
   "property": "C100",
   "status": "partial",
   "theorems": [
    "Seyfert.Submit.command_last_options",
    "Seyfert.Submit.command_default",
    "Seyfert.Submit.logs_differ",
    "Seyfert.Submit.logs_apart",
    "Seyfert.Submit.logs_shared",
    "Seyfert.Submit.submit_spec",
    "Seyfert.Submit.log_dirs",
    "Seyfert.Submit.submit_no_answer"
   ],
   "note": "False for submissions without a time in the name: they share logs (logs_shared). Without an announcement of the scheduler the call fails although the command has been run (submit_no_answer)."
  },
  {
   "property": "C101",
   "status": "partial",
   "theorems": [
    "Seyfert.Submit.seconds_next_day",
    "Seyfert.Submit.seconds_clock",
    "Seyfert.Submit.duration_partial",
    "Seyfert.Submit.duration_drops_days",
    "Seyfert.Submit.duration_day_longer",
    "Seyfert.Submit.name_back_partial",
    "Seyfert.Submit.no_table",
    "Seyfert.Submit.date_back",
    "Seyfert.Submit.row_partial",
    "Seyfert.Submit.number_back",
    "Seyfert.Submit.no_table_number",
    "Seyfert.Submit.outStem_spec",
    "Seyfert.Submit.row_columns"
   ],
   "note": "False for jobs of a day or more (duration_drops_days, duration_day_longer), for other years (no_table) and if a log lacks a number (no_table_number)."
  },
  {
   "property": "C102",
   "status": "partial",
   "theorems": [
    "Seyfert.Report.job_status_partial",
    "Seyfert.Report.job_status_order_false",
    "Seyfert.Report.submitted_not_seen",
    "Seyfert.Report.core_and_size",
    "Seyfert.Report.task_status",
    "Seyfert.Report.task_report",
    "Seyfert.Report.task_sums",
    "Seyfert.Report.run_status",
    "Seyfert.Report.run_report",
    "Seyfert.Report.empty_run_success",
    "Seyfert.Report.half_done_undefined",
    "Seyfert.Report.empty_task_fails",
    "Seyfert.Report.missing_err_fails",
    "Seyfert.Report.core_file",
    "Seyfert.Report.core_message",
    "Seyfert.Report.task_outputs",
    "Seyfert.Report.run_reported"
   ],
   "note": "False with two logs of errors (job_status_order_false), for jobs that the program itself submits (submitted_not_seen), for empty and unfinished runs (empty_run_success, half_done_undefined), and no report is written in two cases (empty_task_fails, missing_err_fails)."
  },
  {
   "property": "C103",
   "status": "partial",
   "theorems": [
    "Seyfert.Report.readDate_spec",
    "Seyfert.Report.execution_time",
    "Seyfert.Report.execution_time_partial",
    "Seyfert.Report.execution_time_rerun_false",
    "Seyfert.Report.hosts_spec",
    "Seyfert.Report.task_hosts",
    "Seyfert.Report.job_number",
    "Seyfert.Report.jobs_sorted",
    "Seyfert.Report.jobs_sorted_false",
    "Seyfert.Report.host_char"
   ],
   "note": "False for jobs of a day or more and for a log with an unfinished second run (execution_time_rerun_false); numbers are compared as text (jobs_sorted_false)."
  },
  {
   "property": "C104",
   "status": "proved",
   "theorems": [
    "Seyfert.Bias.init_ok",
    "Seyfert.Bias.init_error",
    "Seyfert.Bias.flagship_range",
    "Seyfert.Bias.flagship_increasing",
    "Seyfert.Bias.flagship_limits",
    "Seyfert.Bias.flagship_table",
    "Seyfert.Bias.evaluate_galaxies",
    "Seyfert.Bias.evaluate_voids"
   ],
   "note": "Real numbers instead of floats."
  },
  {
   "property": "C105",
   "status": "proved",
   "theorems": [
    "Seyfert.Bias.growth_iff",
    "Seyfert.Bias.growth_value",
    "Seyfert.Bias.ratio_spec",
    "Seyfert.Bias.voidBias_eq",
    "Seyfert.Bias.voidBias_lt_one",
    "Seyfert.Bias.multiplicity_pos",
    "Seyfert.Bias.multiplicity_large",
    "Seyfert.Bias.size_pos",
    "Seyfert.Bias.mean_between",
    "Seyfert.Bias.mean_lt_one",
    "Seyfert.Bias.mean_example",
    "Seyfert.Bias.vdn_iff",
    "Seyfert.Bias.vdn_value",
    "Seyfert.Bias.unaffected",
    "Seyfert.Bias.xOf_eq",
    "Seyfert.Bias.size_rare"
   ],
   "note": "The spline is a parameter that gives the ordinates at the points of the grid; between the points the value is that of the spline. That the size function is positive is proved for small arguments of the multiplicity and a falling variance."
  },
  {
   "property": "C106",
   "status": "proved",
   "theorems": [
    "Seyfert.Bias.sigma_cases",
    "Seyfert.Bias.sigma_decreasing",
    "Seyfert.Bias.sigma_scale",
    "Seyfert.Bias.sigma_calls"
   ],
   "note": "Simpson's rule as in SciPy, real numbers."
  },
  {
   "property": "C107",
   "status": "partial",
   "theorems": [
    "Seyfert.BiasFile.roundtrip",
    "Seyfert.BiasFile.listing_lookup",
    "Seyfert.BiasFile.listing_sorted",
    "Seyfert.BiasFile.save_errors",
    "Seyfert.BiasFile.save_load_save",
    "Seyfert.BiasFile.load_into",
    "Seyfert.BiasFile.values_lost",
    "Seyfert.BiasFile.piecewise_reload",
    "Seyfert.BiasFile.constant_reload_partial",
    "Seyfert.BiasFile.constant_reload_wrong"
   ],
   "note": "False for values without a grid, which are written and not read, and for the constant model with more than ten bins, whose values are permuted by reading. Proved otherwise."
  },
  {
   "property": "C108",
   "status": "partial",
   "theorems": [
    "Seyfert.Stored.dens_back",
    "Seyfert.Stored.dens_incomplete",
    "Seyfert.Stored.densities_back",
    "Seyfert.Stored.dens_twice",
    "Seyfert.Stored.weight_back",
    "Seyfert.Stored.weight_into"
   ],
   "note": "False of the code in three points: tables a density was not made from are lost, values of a weight function without redshifts are lost, loading into an existing weight function with a root that begins with a slash always raises."
  },
  {
   "property": "C109",
   "status": "partial",
   "theorems": [
    "Seyfert.Stored.coll_back",
    "Seyfert.Stored.coll_back_eq",
    "Seyfert.Stored.eq_iff",
    "Seyfert.Stored.eq_asymmetric",
    "Seyfert.Stored.cl_no_kernel",
    "Seyfert.Stored.cl_no_kernel_left",
    "Seyfert.Stored.load_no_kernel",
    "Seyfert.Stored.weights_first",
    "Seyfert.Stored.weights_lost",
    "Seyfert.Stored.second_collection"
   ],
   "note": "False of the code: weight functions of probes without spectra are lost, a second collection gets the weight functions of the first, spectra without kernel cannot be saved, equality is not symmetric. The round trip is proved for a new file under its root, and for what it keeps."
  },
  {
   "property": "C11",
   "status": "proved",
   "theorems": [
    "Seyfert.Fisher.fix_spec",
    "Seyfert.Fisher.fix_unknown",
    "Seyfert.Fisher.fix_fix",
    "Seyfert.Fisher.fix_add",
    "Seyfert.Fisher.fix_marg_comm",
    "Seyfert.Fisher.fix_marg_comm_posDef"
   ],
   "note": ""
  },
  {
   "property": "C110",
   "status": "partial",
   "theorems": [
    "Seyfert.Stored.delta_back",
    "Seyfert.Stored.delta_back_new",
    "Seyfert.Stored.delta_alone",
    "Seyfert.Stored.derivs_back"
   ],
   "note": "False of the code for collections without joint or without single covariances: the file is written and cannot be read."
  },
  {
   "property": "C111",
   "status": "partial",
   "theorems": [
    "Seyfert.CosmoFile.power_back",
    "Seyfert.CosmoFile.power_incomplete",
    "Seyfert.CosmoFile.power_eq_iff",
    "Seyfert.CosmoFile.power_code_not_compared",
    "Seyfert.CosmoFile.parsKept_lookup",
    "Seyfert.CosmoFile.cosmo_back",
    "Seyfert.CosmoFile.cosmo_back_checked",
    "Seyfert.CosmoFile.cosmo_back_eq",
    "Seyfert.CosmoFile.checked_kept",
    "Seyfert.CosmoFile.cosmo_incomplete",
    "Seyfert.CosmoFile.cosmo_incomplete_leaves",
    "Seyfert.CosmoFile.cosmo_no_pars",
    "Seyfert.CosmoFile.cosmo_no_power",
    "Seyfert.CosmoFile.cosmo_unchecked",
    "Seyfert.CosmoFile.moved_not_read",
    "Seyfert.CosmoFile.load_keeps",
    "Seyfert.CosmoFile.load_mixes",
    "Seyfert.CosmoFile.load_model",
    "Seyfert.CosmoFile.compare_raises",
    "Seyfert.CosmoFile.compare_arrays",
    "Seyfert.CosmoFile.load_missing",
    "Seyfert.CosmoFile.compare_iff"
   ],
   "note": "Complete cosmologies and power spectra come back and compare equal. False as stated in four ways: without parameters, or with parameters that fail the checks, a cosmology is saved and cannot be read; without power spectrum the default reading fails; loading into an existing cosmology keeps its parameters, flatness and model beside the arrays of the file."
  },
  {
   "property": "C112",
   "status": "partial",
   "theorems": [
    "Seyfert.FLoad.load_ok_iff",
    "Seyfert.FLoad.load_probes",
    "Seyfert.FLoad.load_lookup",
    "Seyfert.FLoad.load_exact",
    "Seyfert.FLoad.load_steps",
    "Seyfert.FLoad.load_bias",
    "Seyfert.FLoad.load_nuisance",
    "Seyfert.FLoad.load_probe_nuisance",
    "Seyfert.FLoad.load_varied",
    "Seyfert.FLoad.load_twice",
    "Seyfert.FLoad.reload_keeps",
    "Seyfert.FLoad.collision_loses",
    "Seyfert.FLoad.extra_replaces_cosmological",
    "Seyfert.FLoad.extra_other_probe",
    "Seyfert.FLoad.long_name_entry",
    "Seyfert.FLoad.stale_probe",
    "Seyfert.FLoad.load_nuisance_for"
   ],
   "note": "False of the code: parameters of the same name replace each other in silence (collision_loses, extra_replaces_cosmological), an extra parameter may belong to another probe (extra_other_probe), entries under long names are refused or replaced by the entry under the alias (long_name_entry), reading a second file keeps probes of the first (stale_probe). Proved: when a file is read (load_ok_iff), its probes (load_probes), the parameters for any names (load_lookup) and exactly for distinct names (load_exact, load_bias, load_nuisance, load_probe_nuisance, load_varied), reading twice (load_twice), what a second file keeps (reload_keeps)."
  },
  {
   "property": "C113",
   "status": "partial",
   "theorems": [
    "Seyfert.FLoad.common_pairs",
    "Seyfert.FLoad.common_refused_iff",
    "Seyfert.FLoad.common_swap",
    "Seyfert.FLoad.auto_own",
    "Seyfert.FLoad.auto_same",
    "Seyfert.FLoad.cross_common",
    "Seyfert.FLoad.check_iff",
    "Seyfert.FLoad.all_grids",
    "Seyfert.FLoad.binning_increasing",
    "Seyfert.FLoad.linear_grid",
    "Seyfert.FLoad.linear_common",
    "Seyfert.FLoad.file_grid",
    "Seyfert.FLoad.common_unsorted",
    "Seyfert.FLoad.common_repeated",
    "Seyfert.FLoad.common_asymmetric"
   ],
   "note": "False of the code: widths are those of the first probe (common_asymmetric), and for multipoles from a file that do not increase they belong to other multipoles (common_unsorted) or are too many (common_repeated). Proved: the rest, for increasing multipoles, which the computed grids are (binning_increasing)."
  },
  {
   "property": "C114",
   "status": "proved",
   "theorems": [
    "Seyfert.Inputs.compute_blocks",
    "Seyfert.Inputs.compute_entries",
    "Seyfert.Inputs.prepare_none",
    "Seyfert.Inputs.prepare_blocks",
    "Seyfert.Inputs.prepare_missing",
    "Seyfert.Inputs.prepare_recompute",
    "Seyfert.Inputs.prepare_entries",
    "Seyfert.Inputs.joint_stale"
   ],
   "note": "Beyond the statement: the joint matrices of the collection are not built again, so that after giving a file of shot noise they are those of the old noise (joint_stale). The Fisher matrices do not use them."
  },
  {
   "property": "C115",
   "status": "partial",
   "theorems": [
    "Seyfert.ClDer.load_choice",
    "Seyfert.ClDer.load_inconsistent",
    "Seyfert.ClDer.job_spectra_partial",
    "Seyfert.ClDer.file_derivative_partial",
    "Seyfert.ClDer.file_derivative_unrelated_partial",
    "Seyfert.ClDer.file_derivative_incomplete",
    "Seyfert.ClDer.unknown_method",
    "Seyfert.ClDer.file_derivative_analytic",
    "Seyfert.ClDer.mem_derivative_partial",
    "Seyfert.ClDer.mem_needs_seven",
    "Seyfert.ClDer.routes_agree_partial",
    "Seyfert.ClDer.quadratic_exact",
    "Seyfert.ClDer.bias_derivative",
    "Seyfert.ClDer.stack_ragged",
    "Seyfert.ClDer.report_iff",
    "Seyfert.ClDer.load_unknown"
   ],
   "note": "False parts: from ten displacements on directories are misread (C65); in one process exactly seven displacements are needed (mem_needs_seven), the method of the parameter is not looked at, and spectra of other probes are fitted too; a cosmology file with other parameter values is used with a message only (load_inconsistent). bias_derivative shows that for constant biases the fit and the analytic derivative are the same."
  },
  {
   "property": "C116",
   "status": "partial",
   "theorems": [
    "Seyfert.Life.setOrder_spec",
    "Seyfert.Life.order_unset",
    "Seyfert.Life.order_covers_partial",
    "Seyfert.Life.order_stale",
    "Seyfert.Life.list_dropped",
    "Seyfert.Life.load_ok",
    "Seyfert.Life.load_stops",
    "Seyfert.Life.load_no_directory",
    "Seyfert.Life.load_iff",
    "Seyfert.Life.fromDir_ok",
    "Seyfert.Life.fromRun_lcdm",
    "Seyfert.Life.subset_spec",
    "Seyfert.Life.addends_value",
    "Seyfert.Life.addends_missing",
    "Seyfert.Life.fromRun_other",
    "Seyfert.Life.construct_order",
    "Seyfert.Life.construct_matrices"
   ],
   "note": "False parts: an order that was set stays when the working matrices change and may repeat names (order_stale); a list of matrices given to the constructor is dropped (list_dropped); loading from a missing directory empties the base matrices (load_no_directory), and a failing file leaves a part of the directory loaded (load_stops)."
  },
  {
   "property": "C117",
   "status": "partial",
   "theorems": [
    "Seyfert.Plot.colors_stable",
    "Seyfert.Plot.position_distinct",
    "Seyfert.Plot.color_missing",
    "Seyfert.Plot.panels",
    "Seyfert.Plot.drawn_spec",
    "Seyfert.Plot.range_value",
    "Seyfert.Plot.range_contains_partial",
    "Seyfert.Plot.range_cuts",
    "Seyfert.Plot.default_setup",
    "Seyfert.Plot.given_ranges_dropped",
    "Seyfert.Plot.results_plots_fail",
    "Seyfert.Plot.settings_dictionary_fails",
    "Seyfert.Plot.built_plotter",
    "Seyfert.Plot.text_is_letters",
    "Seyfert.Plot.ranges_written"
   ],
   "note": "False parts: the range is the mean of the intervals, so intervals of worse matrices are cut (range_cuts); a matrix added after the first colour was asked for has none (color_missing); the default set up drops given ranges and settings (given_ranges_dropped); a dictionary of settings always fails (settings_dictionary_fails), and so do the plots of the collector of results (results_plots_fail); one parameter cannot be drawn (drawn_spec)."
  },
  {
   "property": "C118",
   "status": "partial",
   "theorems": [
    "Seyfert.Results.cosmology_sums",
    "Seyfert.Results.cosmology_base",
    "Seyfert.Results.collected_partial",
    "Seyfert.Results.plots_fail",
    "Seyfert.Results.cosmology_refused",
    "Seyfert.Results.empty_directory",
    "Seyfert.Results.config_spec",
    "Seyfert.Results.boolean_refused"
   ],
   "note": "False parts: with plots, which is the default, setting up always raises (plots_fail); a directory without matrices makes the table of errors fail (empty_directory); the JSON value true for the presence of a cosmology is refused (boolean_refused)."
  },
  {
   "property": "C119",
   "status": "partial",
   "theorems": [
    "Seyfert.Tables.query_dict_spec",
    "Seyfert.Tables.query_unknown_ignored",
    "Seyfert.Tables.select_spec",
    "Seyfert.Tables.select_refused",
    "Seyfert.Tables.select_columns",
    "Seyfert.Tables.fom_spec",
    "Seyfert.Tables.fom_iff",
    "Seyfert.Tables.hybrid_succeeds_iff",
    "Seyfert.Tables.hybrid_spec",
    "Seyfert.Tables.hybrid_idempotent",
    "Seyfert.Tables.hybrid_stuck",
    "Seyfert.Tables.hybrid_half_done",
    "Seyfert.Tables.latex_gain",
    "Seyfert.Tables.latex_loss",
    "Seyfert.Tables.latex_errors",
    "Seyfert.Tables.latex_error_lost"
   ],
   "note": "False parts: unknown options of a query are ignored (query_unknown_ignored); a replacement that fails leaves the table half replaced and indexed, so that it can not be repeated (hybrid_half_done, hybrid_stuck); a loss is printed with two minus signs (latex_loss); without a column for the number of bins the first error is not printed (latex_error_lost). Tables with missing values or repeated indices are not modelled."
  },
  {
   "property": "C12",
   "status": "partial",
   "theorems": [
    "Seyfert.Fisher.errors_current_partial",
    "Seyfert.Fisher.stale_errors"
   ],
   "note": "False of the code after fixing parameters or adding a prior with a cached inverse (stale_errors); proved for every history not ending stale."
  },
  {
   "property": "C120",
   "status": "proved",
   "theorems": [
    "Seyfert.OrchIn.create_spec",
    "Seyfert.OrchIn.create_ok_iff",
    "Seyfert.OrchIn.create_keeps",
    "Seyfert.OrchIn.create_same_file",
    "Seyfert.OrchIn.configs_iff",
    "Seyfert.OrchIn.configs_spec",
    "Seyfert.OrchIn.prepared_configs",
    "Seyfert.OrchIn.pmm_dirs_iff",
    "Seyfert.OrchIn.suffix_txt",
    "Seyfert.OrchIn.paths_spec",
    "Seyfert.OrchIn.json_list_not_read",
    "Seyfert.OrchIn.existing_keyvals",
    "Seyfert.OrchIn.existing_arguments",
    "Seyfert.OrchIn.existing_runs",
    "Seyfert.OrchIn.main_refuses",
    "Seyfert.OrchIn.main_work",
    "Seyfert.OrchIn.main_create",
    "Seyfert.OrchIn.existing_needs",
    "Seyfert.OrchIn.existing_ignores_tree",
    "Seyfert.OrchIn.orchestrated",
    "Seyfert.OrchIn.fresh_refused",
    "Seyfert.OrchIn.one_file_by_order",
    "Seyfert.OrchIn.one_file_missing",
    "Seyfert.OrchIn.create_resets_external",
    "Seyfert.OrchIn.blank_lines",
    "Seyfert.OrchIn.existing_launched_though_no",
    "Seyfert.OrchIn.copies_from_tree",
    "Seyfert.OrchIn.path_components"
   ],
   "note": "Beyond the statement, facts a user may not expect: with two files where one is expected the listing order decides (one_file_by_order); preparing again resets the external directories (create_resets_external); JSON lists are not read although offered (json_list_not_read); blank lines become the current directory (blank_lines). Directories inside the sub-directories are not modelled."
  },
  {
   "property": "C121",
   "status": "partial",
   "theorems": [
    "Seyfert.FTask.never_wrong",
    "Seyfert.FTask.never_lost",
    "Seyfert.FTask.tables_never_lost",
    "Seyfert.FTask.tables_first",
    "Seyfert.FTask.task_exists",
    "Seyfert.FTask.task_result",
    "Seyfert.FTask.completes",
    "Seyfert.FTask.same_in_both_modes",
    "Seyfert.FTask.interactive_recovers",
    "Seyfert.FTask.batch_recovers_partial",
    "Seyfert.FTask.batch_stuck",
    "Seyfert.FTask.cut_off_tables_stuck",
    "Seyfert.FTask.task_keeps",
    "Seyfert.FTask.cut_off_skipped",
    "Seyfert.FTask.batch_incomplete",
    "Seyfert.FTask.selected_names",
    "Seyfert.FTask.selected_wf",
    "Seyfert.FTask.batch_can_get_stuck",
    "Seyfert.FTask.batch_can_be_incomplete",
    "Seyfert.FTask.cut_off_can_be_skipped"
   ],
   "note": "False part: a batch run does not complete every interrupted directory. Killed between two auto-correlations, it fails for ever (batch_stuck, batch_can_get_stuck); killed between the last table and the last Fisher matrix, it succeeds without that Fisher matrix (batch_incomplete, batch_can_be_incomplete). Interactive runs do complete them (interactive_recovers). The values computed are parameters."
  },
  {
   "property": "C122",
   "status": "partial",
   "theorems": [
    "Seyfert.Gui.saves_iff",
    "Seyfert.Gui.shows_unique",
    "Seyfert.Gui.settings_saved",
    "Seyfert.Gui.reads_iff",
    "Seyfert.Gui.round_trip",
    "Seyfert.Gui.metadata_irrelevant",
    "Seyfert.Gui.name_ends_partial",
    "Seyfert.Gui.void_never_loads",
    "Seyfert.Gui.alignment_missing",
    "Seyfert.Gui.synthetic_missing",
    "Seyfert.Gui.external_box_ignored",
    "Seyfert.Gui.displacements_unchecked",
    "Seyfert.Gui.name_without_extension",
    "Seyfert.Gui.alignment_iff"
   ],
   "note": "False parts: with the void tab ticked the file cannot be read (void_never_loads); the alignment parameters are filed under WL instead of Lensing, so lensing with intrinsic alignment cannot be computed (alignment_missing); the synthetic options are left out (synthetic_missing); the boxes for external multipoles have no effect (external_box_ignored); displacements are not checked (displacements_unchecked); the extension can be missing (name_without_extension). JSON text, Qt and float parsing are parameters."
  },
  {
   "property": "C123",
   "status": "proved",
   "theorems": [
    "Seyfert.Cov.survey_fisher",
    "Seyfert.FTask.right_forecast",
    "Seyfert.FTask.forecast_files",
    "Seyfert.FTask.forecast_never_wrong"
   ],
   "note": "Positive definite joint matrices make every covariance regular, so no inversion fails. Rounding is not modelled."
  },
  {
   "property": "C124",
   "status": "proved",
   "theorems": [
    "Seyfert.Cov.order_irrelevant"
   ],
   "note": ""
  },
  {
   "property": "C125",
   "status": "partial",
   "theorems": [
    "Seyfert.Cov.more_information_partial",
    "Seyfert.Cov.errors_do_not_grow_partial",
    "Seyfert.Cov.information_lost",
    "Seyfert.Cov.information_made_up"
   ],
   "note": "True if the larger data vector has the same common multipoles or the smaller is a single auto-correlation. False otherwise: adding the auto-correlation of a probe with fewer multipoles drops the correlations between the other probes at the multipoles it lacks (information_lost), and counts their correlated auto-correlations as independent there (information_made_up)."
  },
  {
   "property": "C126",
   "status": "partial",
   "theorems": [
    "Seyfert.RunS.batch_is_interactive_partial",
    "Seyfert.RunS.job_is_forecast_partial",
    "Seyfert.RunS.configs_once",
    "Seyfert.RunS.own_directories",
    "Seyfert.RunS.modes",
    "Seyfert.RunS.space_breaks_job",
    "Seyfert.RunS.text_becomes_list",
    "Seyfert.RunS.false_is_true",
    "Seyfert.RunS.whole_numbers_pass"
   ],
   "note": "Proved for options and paths made of characters the shell leaves alone and not beginning with a dash, configurations whose names do not end in .txt, and flags not given. False otherwise: values are not quoted (space_breaks_job), a configuration ending in .txt becomes a list of configurations in the job (text_becomes_list), and a flag given the word False is on (false_is_true)."
  },
  {
   "property": "C127",
   "status": "partial",
   "theorems": [
    "Seyfert.Job.script_runs_partial",
    "Seyfert.Job.space_stops_job",
    "Seyfert.Job.at_any_time_partial",
    "Seyfert.Job.same_results_partial",
    "Seyfert.Job.inTurn_complete",
    "Seyfert.Job.stopped_and_rerun_partial",
    "Seyfert.Job.power_results_partial",
    "Seyfert.Job.spectra_results_partial",
    "Seyfert.Job.derivative_results_partial",
    "Seyfert.Job.old_results_kept",
    "Seyfert.Job.pipeline_partial"
   ],
   "note": "Proved for run directories of characters the shell leaves alone, parameters named by letters and digits, at most nine steps, and configurations whose names are not those of results. Files are written whole: a job stopped within writing a file is not modelled. False otherwise: paths are not quoted in the scripts (space_stops_job); results that are there already stay although the configuration has changed (old_results_kept)."
  },
  {
   "property": "C128",
   "status": "partial",
   "theorems": [
    "Seyfert.Eval.batch_like_interactive_partial",
    "Seyfert.Eval.forecast_results_partial",
    "Seyfert.Eval.odd_overwrite_no_results",
    "Seyfert.Eval.number_removes_results",
    "Seyfert.Eval.unset_overwrite_no_results",
    "Seyfert.Eval.text_false_removes",
    "Seyfert.Eval.space_stops_results",
    "Seyfert.Eval.dash_stops_results",
    "Seyfert.Eval.txt_directory_is_list",
    "Seyfert.Eval.json_list_is_directory",
    "Seyfert.Eval.blank_line_is_here",
    "Seyfert.Eval.empty_list_modes"
   ],
   "note": "Proved for options and run directories which are plain words for the shell and run directories without the suffix .txt, and for the overwrite option being True or False. False otherwise: a path with a space or beginning with a dash (space_stops_results, dash_stops_results), a run directory ending in .txt (txt_directory_is_list); the json lists announced in the help are taken for run directories (json_list_is_directory); other values of the overwrite option of a forecast remove the old results without making new ones (number_removes_results)."
  },
  {
   "property": "C129",
   "status": "partial",
   "theorems": [
    "Seyfert.Same.equal_iff_partial",
    "Seyfert.Same.same_are_equal",
    "Seyfert.Same.equal_refl",
    "Seyfert.Same.equal_symm_partial",
    "Seyfert.Same.equal_trans_partial",
    "Seyfert.Same.listed_iff_partial",
    "Seyfert.Same.collections_iff_partial",
    "Seyfert.Same.extra_spectrum",
    "Seyfert.Same.reported_right_partial",
    "Seyfert.Same.stretched_equal",
    "Seyfert.Same.misfit_raises",
    "Seyfert.Same.empty_equals_none",
    "Seyfert.Same.extra_attribute",
    "Seyfert.Same.probes_not_compared",
    "Seyfert.Same.wrong_name_reported",
    "Seyfert.Same.densities_equal_iff_partial",
    "Seyfert.Same.weights_equal_iff_partial",
    "Seyfert.Same.powers_equal_iff_partial",
    "Seyfert.Same.spectra_equal_iff_partial",
    "Seyfert.Same.deltas_equal_iff_partial"
   ],
   "note": "Proved for objects with arrays of the same shapes in the same attributes; that the same data is equal is proved without this. False otherwise: an array of length one equals a longer one with that element everywhere (stretched_equal), arrays which do not fit raise (misfit_raises), an empty array equals anything which is no array (empty_equals_none), attributes only the second object has are not compared (extra_attribute), nor are spectra which only the second collection has (extra_spectrum), weight functions of different probes are equal (probes_not_compared), and the name printed is that of another attribute if one is excluded (wrong_name_reported)."
  },
  {
   "property": "C13",
   "status": "proved",
   "theorems": [
    "Seyfert.Fisher.combination_value",
    "Seyfert.Fisher.combination_missing",
    "Seyfert.Fisher.combinations_all",
    "Seyfert.Fisher.combinations_sequential",
    "Seyfert.Fisher.splitOps_text",
    "Seyfert.Fisher.text_injective"
   ],
   "note": "Operand names without blanks. Value is the signed sum of the named matrices; no existing object changes; list evaluation order irrelevant."
  },
  {
   "property": "C130",
   "status": "partial",
   "theorems": [
    "Seyfert.Cov.independent_groups_partial",
    "Seyfert.Cov.separate_probes",
    "Seyfert.Cov.sum_rule_lost",
    "Seyfert.Cov.sum_rule_made_up"
   ],
   "note": "Proved for groups whose probes share the same multipoles as all probes together, and for groups of probes separate from each other with any multipoles. Assumed: a complete survey (as in C123), and that no spectrum depends on nuisance parameters of other probes, which the derivative code enforces. False otherwise: a third, uncorrelated probe with fewer multipoles lowers (sum_rule_lost) or raises (sum_rule_made_up) the information of the first two."
  },
  {
   "property": "C131",
   "status": "partial",
   "theorems": [
    "Seyfert.Job.reads_iff",
    "Seyfert.Job.fisher_reads_partial",
    "Seyfert.Job.missing_derivative",
    "Seyfert.Job.other_name_stops",
    "Seyfert.Job.stale_derivative",
    "Seyfert.Job.spectra_found_partial",
    "Seyfert.Job.run_to_fisher_partial",
    "Seyfert.Job.listing"
   ],
   "note": "Proved for plain paths and at most nine steps, as C127, and for directories without files of derivatives before; empty directories and the logs of the jobs are not represented (an empty directory in Derivative stops the computation, as a directory without derivatives does). False otherwise: if the job fails while there is an older file of the same name, the old derivatives are used (stale_derivative)."
  },
  {
   "property": "C132",
   "status": "partial",
   "theorems": [
    "Seyfert.Sess.session_partial",
    "Seyfert.Sess.session_ok",
    "Seyfert.Sess.niz_kept",
    "Seyfert.Sess.densities_first",
    "Seyfert.Sess.interrupted_densities",
    "Seyfert.Sess.prepare_keeps",
    "Seyfert.Sess.no_workdir",
    "Seyfert.Sess.text_data_fails",
    "Seyfert.Sess.defaults_shared",
    "Seyfert.Sess.own_arguments",
    "Seyfert.Sess.cls_needs",
    "Seyfert.Sess.power_dir_not_linked",
    "Seyfert.Sess.densities_stale",
    "Seyfert.Sess.flat_not_read",
    "Seyfert.Sess.prepared_again_mixes"
   ],
   "note": "Proved for histories in which every object has its own arguments, every run directory its configuration, and the flatness given agrees with the configuration. False otherwise: the densities of a directory are never computed again (densities_first, densities_stale), not even if the process was killed while it wrote them (interrupted_densities); an object prepared again keeps its cosmology and densities (prepare_keeps, prepared_again_mixes); the flatness is not read from the configuration (flat_not_read); objects made without arguments share one dictionary (defaults_shared); a data directory given as text always fails (text_data_fails). The contents of the files and the computations are parameters."
  },
  {
   "property": "C133",
   "status": "proved",
   "theorems": [
    "Seyfert.TaskCfg.get_place",
    "Seyfert.TaskCfg.set_get",
    "Seyfert.TaskCfg.set_works",
    "Seyfert.TaskCfg.job_settings",
    "Seyfert.TaskCfg.job_copy",
    "Seyfert.TaskCfg.failed_unchanged"
   ],
   "note": "Values of settings are not shared between dictionaries; what json.dump writes is what json.load reads."
  },
  {
   "property": "C134",
   "status": "partial",
   "theorems": [
    "Seyfert.TaskCfg.grid_even_partial",
    "Seyfert.TaskCfg.even_unique",
    "Seyfert.TaskCfg.even_ends",
    "Seyfert.TaskCfg.one_point",
    "Seyfert.TaskCfg.grid_points_whole",
    "Seyfert.TaskCfg.grid_negative",
    "Seyfert.TaskCfg.spline_partial",
    "Seyfert.TaskCfg.smoothing_cut",
    "Seyfert.TaskCfg.for_task_iff",
    "Seyfert.TaskCfg.other_task_accepted"
   ],
   "note": "False: a grid of one point has z_min only (one_point), and is not refused; a smoothing which is not whole is cut off, so that every smoothing below one is none (smoothing_cut); files of other tasks are accepted (for_task_iff, other_task_accepted)."
  },
  {
   "property": "C135",
   "status": "partial",
   "theorems": [
    "Seyfert.SCam.build_ok_iff",
    "Seyfert.SCam.build_files",
    "Seyfert.SCam.convert_raises",
    "Seyfert.SCam.convert_left",
    "Seyfert.SCam.convert_ok_partial",
    "Seyfert.SCam.convert_counts",
    "Seyfert.SCam.multipoles_accepted",
    "Seyfert.SCam.order_matters",
    "Seyfert.SCam.lastOf_single"
   ],
   "note": "False: the conversion never succeeds, since the spectra have no kernel and can not be saved (convert_raises); it leaves the first cosmology with one of its spectra (convert_left). If the spectra could be saved the files would be the right ones (convert_ok_partial), but different numbers of multipoles would be refused only at the end and with another exception (convert_counts), different multipoles not at all (multipoles_accepted), and with two files for one cosmology the order counts (order_matters)."
  },
  {
   "property": "C136",
   "status": "partial",
   "theorems": [
    "Seyfert.SCam.ders_ok_iff",
    "Seyfert.SCam.ders_last",
    "Seyfert.SCam.ders_each_partial",
    "Seyfert.SCam.der_name",
    "Seyfert.SCam.ders_multipoles",
    "Seyfert.SCam.ders_order"
   ],
   "note": "False: with two files for one parameter and pair of probes the order counts (ders_order), and multipoles are not compared (ders_multipoles). Otherwise the result has every file (ders_each_partial)."
  },
  {
   "property": "C137",
   "status": "partial",
   "theorems": [
    "Seyfert.RunCmp.version_iff",
    "Seyfert.RunCmp.load_ok_iff",
    "Seyfert.RunCmp.derivatives_stop",
    "Seyfert.RunCmp.comparison_stops",
    "Seyfert.RunCmp.loaded",
    "Seyfert.RunCmp.spectra_found_partial",
    "Seyfert.RunCmp.fiducial_missing",
    "Seyfert.RunCmp.other_directories",
    "Seyfert.RunCmp.needs_results",
    "Seyfert.RunCmp.own_runs_stop",
    "Seyfert.RunCmp.cosmos_compared",
    "Seyfert.RunCmp.fishers_compared",
    "Seyfert.RunCmp.errors_compared",
    "Seyfert.RunCmp.derivatives_compared",
    "Seyfert.RunCmp.spectra_compared",
    "Seyfert.RunCmp.warned_iff",
    "Seyfert.RunCmp.report_lines",
    "Seyfert.RunCmp.only_matrices_tested",
    "Seyfert.RunCmp.saved_and_loaded",
    "Seyfert.RunCmp.nothing_saved",
    "Seyfert.RunCmp.spectra_not_tested",
    "Seyfert.RunCmp.derivatives_unwarned",
    "Seyfert.RunCmp.negative_entries_pass",
    "Seyfert.RunCmp.cosmologies_found_partial"
   ],
   "note": "False: a run with derivatives is never loaded (derivatives_stop), the directories read are not those the program writes (other_directories, own_runs_stop), so that runs of the program itself are never compared; the spectra of the fiducial cosmology are lost (fiducial_missing); background, spectra and derivatives are compared but not reported (only_matrices_tested, spectra_not_tested); derivatives which one run lacks give no warning (derivatives_unwarned); negative entries always agree (negative_entries_pass). What is compared is right, and saving and loading give back the comparison."
  },
  {
   "property": "C138",
   "status": "partial",
   "theorems": [
    "Seyfert.Retro.read104_iff",
    "Seyfert.Retro.read104_lost",
    "Seyfert.Retro.writeOld_iff",
    "Seyfert.Retro.old_unreadable",
    "Seyfert.Retro.read110_spec",
    "Seyfert.Retro.read110_ok_iff",
    "Seyfert.Retro.hubble110",
    "Seyfert.Retro.current_not_110",
    "Seyfert.Retro.power_asked",
    "Seyfert.Retro.readCls104_ok_iff",
    "Seyfert.Retro.readCls104_spec",
    "Seyfert.Retro.old_key",
    "Seyfert.Retro.old_not_saved",
    "Seyfert.Retro.readDcl_ok_iff",
    "Seyfert.Retro.readDcl_spec",
    "Seyfert.Retro.current_dcl"
   ],
   "note": "False: no file of the writer of old files is read (old_unreadable), cosmologies before 1.1.0 lose growth, parameters and Hubble constant (read104_lost), 1.1.0 never has a power spectrum and older ones always (power_asked), and old spectra call themselves None_None and cannot be saved (old_key, old_not_saved). Proved: when each format is read and what is read from it."
  },
  {
   "property": "C139",
   "status": "partial",
   "theorems": [
    "Seyfert.TeXText.translate_order",
    "Seyfert.TeXText.plot_text_partial",
    "Seyfert.TeXText.alias_text",
    "Seyfert.TeXText.shared_letter",
    "Seyfert.TeXText.second_missed",
    "Seyfert.TeXText.alone_missed",
    "Seyfert.TeXText.row_text",
    "Seyfert.TeXText.marks_row",
    "Seyfert.TeXText.zero_loss",
    "Seyfert.TeXText.table_text",
    "Seyfert.TeXText.cline_rule",
    "Seyfert.TeXText.legend_text_partial"
   ],
   "note": "False: parameters are only found between two blanks, so a name alone stays (alone_missed) and of two names with one blank between the second stays (second_missed); XCl is translated twice over its shared letter (shared_letter, so plot texts are proved without it); a loss of 0.00 percent is marked as a loss (zero_loss). Proved: the result for all texts against one table of words, in every order of the sets, cells of rows, marks, lines and legends."
  },
  {
   "property": "C14",
   "status": "partial",
   "theorems": [
    "Seyfert.Fisher.base_unchanged_partial",
    "Seyfert.Fisher.contents_unchanged_partial",
    "Seyfert.Fisher.fromAddends_extends",
    "Seyfert.Fisher.base_changed"
   ],
   "note": "False in general: useBaseFishers and one-addend sums share objects, so marginalising the working matrices marginalises the base ones (base_changed). True for sums of two or more addends and for all histories without marginalisation."
  },
  {
   "property": "C140",
   "status": "partial",
   "theorems": [
    "Seyfert.Tools.kills_spec",
    "Seyfert.Tools.runs_stopped_partial",
    "Seyfert.Tools.others_spared",
    "Seyfert.Tools.says_iff",
    "Seyfert.Tools.long_names_spared",
    "Seyfert.Tools.itself_spared",
    "Seyfert.Tools.editor_stopped",
    "Seyfert.Tools.interactive_spared"
   ],
   "note": "False: runs of users with more than eight characters or with anything but letters in the name are never found (long_names_spared), programs working on a file named like the submitter are ended too (editor_stopped), and runs by run_seyfert are not (interactive_spared). Proved: exactly which processes are ended, and that the program spares itself."
  },
  {
   "property": "C141",
   "status": "partial",
   "theorems": [
    "Seyfert.Tools.jobDone_iff",
    "Seyfert.Tools.report_spec",
    "Seyfert.Tools.outFiles_iff",
    "Seyfert.Tools.submitted_found",
    "Seyfert.Tools.waiting_unnoticed",
    "Seyfert.Tools.later_failure_hidden"
   ],
   "note": "False: a run without a log is not noticed, so that success is reported for jobs which wait or were killed (waiting_unnoticed), and a failure added to a log after a success counts as a success (later_failure_hidden). Proved: which logs are read, when one counts as success, and the report on them."
  },
  {
   "property": "C142",
   "status": "partial",
   "theorems": [
    "Seyfert.Tools.integ_refused_iff",
    "Seyfert.Tools.integ_run",
    "Seyfert.Tools.integ_ok_partial",
    "Seyfert.Tools.unknown_versions",
    "Seyfert.Tools.branch_lost",
    "Seyfert.Tools.branch_changed",
    "Seyfert.Tools.second_fails"
   ],
   "note": "False: unknown versions are passed over (unknown_versions); only the first small letters of the name of the branch are read, so that other branches are not restored (branch_lost), another one is checked out (branch_changed), or the second run is never made (second_fails); and without a branch nothing is done (integ_refused_iff). Proved for branches of small letters."
  },
  {
   "property": "C143",
   "status": "partial",
   "theorems": [
    "Seyfert.Scen.matchRun_iff",
    "Seyfert.Scen.runs_loaded",
    "Seyfert.Scen.all_runs_partial",
    "Seyfert.Scen.one_kind",
    "Seyfert.Scen.analyses_ok",
    "Seyfert.Scen.scenario_unused",
    "Seyfert.Scen.scenario_wrong",
    "Seyfert.Scen.same_bins"
   ],
   "note": "False: with a directory given the scenario has no effect (scenario_unused), so that a pessimistic run is loaded as an optimistic one (scenario_wrong), and of two runs with the same number of bins one is lost, depending on the order of the directory (same_bins). Proved: exactly which runs are loaded, and that all are if their numbers of bins differ."
  },
  {
   "property": "C144",
   "status": "partial",
   "theorems": [
    "Seyfert.Scen.replaced_iff",
    "Seyfert.Scen.replaced",
    "Seyfert.Scen.replaced_half",
    "Seyfert.Scen.changes_shared",
    "Seyfert.Scen.prepare_again",
    "Seyfert.Scen.inverted_all",
    "Seyfert.Scen.four_bins_changed"
   ],
   "note": "False: afterwards the analyses share the matrices, so that an operation in place on one changes the others (changes_shared, four_bins_changed), and a missing matrix ends the replacement half way (replaced_half). Proved: when it succeeds, what each analysis has then, and that preparing the matrices of all analyses prepares each of them although the shared ones are prepared several times."
  },
  {
   "property": "C145",
   "status": "partial",
   "theorems": [
    "Seyfert.DMake.made",
    "Seyfert.DMake.made_iff",
    "Seyfert.DMake.runs_begun",
    "Seyfert.DMake.refused",
    "Seyfert.DMake.renamed",
    "Seyfert.DMake.half_written",
    "Seyfert.DMake.never_again",
    "Seyfert.DMake.history_partial"
   ],
   "note": "False: a run for a file that is there is refused only after it has written its probe into the file, so that the density of another probe is read from then on (renamed), and a sky fraction which is not a number fails half way, leaving a file which no later run can complete (half_written, never_again). Proved: exactly when a run succeeds, that the file then holds the density described, and that over every history the density stays the one first made but for the name of its probe."
  },
  {
   "property": "C146",
   "status": "partial",
   "theorems": [
    "Seyfert.DMake.taken_up",
    "Seyfert.DMake.niz_unusable",
    "Seyfert.DMake.incomplete_response"
   ],
   "note": "False: a density given bin by bin (--has_niz) is written without its surface densities, and every forecast stops with a TypeError when it takes the file up (niz_unusable). Proved for densities made from one distribution and an instrument."
  },
  {
   "property": "C147",
   "status": "partial",
   "theorems": [
    "Seyfert.BTab.table_iff",
    "Seyfert.BTab.table_rows",
    "Seyfert.BTab.table_all_partial",
    "Seyfert.BTab.gains",
    "Seyfert.BTab.gains_one_bin",
    "Seyfert.BTab.twin_lost",
    "Seyfert.BTab.latex_columns",
    "Seyfert.BTab.excel_widths",
    "Seyfert.BTab.excel_kept"
   ],
   "note": "False: rows with equal rounded numbers are dropped although matrix or bins differ, so a reference with the same results for all bins leaves gains for one number of bins only (gains_one_bin), and a matrix with the results of another is missing or stops the table (twin_lost); a LaTeX table without a multi-index declares too few columns (latex_columns), and with the index written the widths go to other columns (excel_widths). Proved: exactly when a table is made, exactly which rows it has and in which order, each gain, and that all results are there if no two are equal after rounding."
  },
  {
   "property": "C148",
   "status": "partial",
   "theorems": [
    "Seyfert.Contour.query_one",
    "Seyfert.Contour.chosen_iff",
    "Seyfert.Contour.chosen",
    "Seyfert.Contour.collected_never",
    "Seyfert.Contour.bins_never",
    "Seyfert.Contour.ranges_shared",
    "Seyfert.Contour.plots_shared",
    "Seyfert.Contour.plot_file_iff",
    "Seyfert.Contour.options_iff",
    "Seyfert.Contour.colours_enough",
    "Seyfert.Contour.subset_all_iff",
    "Seyfert.Contour.spaced_never",
    "Seyfert.Contour.files_written",
    "Seyfert.Contour.ranges_file_iff",
    "Seyfert.Contour.case_matrices"
   ],
   "note": "False: collections made by the present version have neither run ids nor a column n_bins, so that no analysis is chosen (collected_never) and no plot made (bins_never); the scenario is overwritten by the beginning of the run id (chosen); ranges are written whatever the options say, to a file shared by plots of other parameters (ranges_shared), and plots of other scenarios or options go to the same file (plots_shared); matrices with a space in their name cannot be chosen (spaced_never). Proved: exactly when a choice succeeds and what is returned, which plots share a file, which options count."
  },
  {
   "property": "C149",
   "status": "partial",
   "theorems": [
    "Seyfert.Contour.slice_iff",
    "Seyfert.Contour.slice_bounds",
    "Seyfert.Contour.pair_legends",
    "Seyfert.Contour.grid_legend"
   ],
   "note": "Proved but for the legend: a pair of panels with the same number of bins gets two (pair_legends)."
  },
  {
   "property": "C15",
   "status": "proved",
   "theorems": [
    "Seyfert.Cov.covariance_spec",
    "Seyfert.Cov.covariance_needs_all"
   ],
   "note": "Closed formula of every entry of the assembled array (so symmetry follows), for every data vector, any number of bins, any common multipole; and failure when a spectrum is missing."
  },
  {
   "property": "C150",
   "status": "partial",
   "theorems": [
    "Seyfert.CProg.succeeds_iff",
    "Seyfert.CProg.all_collected",
    "Seyfert.CProg.again",
    "Seyfert.CProg.completed_after_stop",
    "Seyfert.CProg.stopped_state",
    "Seyfert.CProg.failed_is_stopped",
    "Seyfert.CProg.failed_at",
    "Seyfert.CProg.tables_beside_old"
   ],
   "note": "False for failures: the tables are written before the analyses are loaded, so that new tables stand beside old analyses (tables_beside_old, failed_at), and one key that cannot be collected ends the program with the others half replaced. Proved: exactly when the program succeeds, what it then leaves, repetition also after a stop at any point, and the state at every point of interruption. A file interrupted while it is written is not modelled."
  },
  {
   "property": "C151",
   "status": "partial",
   "theorems": [
    "Seyfert.Args.attribute_history",
    "Seyfert.Args.refused_iff",
    "Seyfert.Args.method_hides",
    "Seyfert.Args.construct_iff",
    "Seyfert.Args.construct_attributes",
    "Seyfert.Args.other_refused",
    "Seyfert.Args.path_options",
    "Seyfert.Args.path_names",
    "Seyfert.Args.number_refused",
    "Seyfert.Args.read_again",
    "Seyfert.Args.without_arguments",
    "Seyfert.Args.step_number"
   ],
   "note": "False for names of methods of dictionaries, which hide options called so (method_hides), and for files and directories whose name has digits only: the command line is converted before, and a number is refused as a path (number_refused). Proved for all other names and values, with the exact condition on arguments."
  },
  {
   "property": "C152",
   "status": "partial",
   "theorems": [
    "Seyfert.FFiles.overwritten",
    "Seyfert.FFiles.exactly_iff",
    "Seyfert.FFiles.repaired",
    "Seyfert.FFiles.stale",
    "Seyfert.FFiles.mixed",
    "Seyfert.FFiles.deleted_first",
    "Seyfert.FFiles.stopped_matrix",
    "Seyfert.FFiles.kept",
    "Seyfert.FFiles.succeeds_iff",
    "Seyfert.FFiles.never_completed",
    "Seyfert.FFiles.tables_kept",
    "Seyfert.FFiles.first_run"
   ],
   "note": "The last sentence is false: with overwriting, matrices of earlier runs that the present run does not write stay in the directory and are read with the others (stale, with the exact condition exactly_iff); without overwriting, tables of an earlier run are kept beside new matrices (tables_kept). A run stopped after its first matrix can only be completed with overwriting (never_completed, repaired), and while it overwrites, matrices are missing for a moment (deleted_first) and stand beside the old tables (mixed). All else is proved."
  },
  {
   "property": "C153",
   "status": "proved",
   "theorems": [
    "Seyfert.Combos.load_spec",
    "Seyfert.Combos.shipped_read",
    "Seyfert.Combos.base_labels",
    "Seyfert.Combos.written_labels",
    "Seyfert.Combos.operands_known",
    "Seyfert.Combos.counted_once",
    "Seyfert.Combos.listed_twice",
    "Seyfert.Combos.evaluated",
    "Seyfert.Combos.entries_tally",
    "Seyfert.Combos.entries_content",
    "Seyfert.Combos.nonneg",
    "Seyfert.Combos.result_names",
    "Seyfert.Combos.shipped_form",
    "Seyfert.Combos.results_succeed",
    "Seyfert.Combos.same_information_refused",
    "Seyfert.Fisher.least_value",
    "Seyfert.Fisher.more_prepared",
    "Seyfert.Fisher.difference_posDef"
   ],
   "note": "The lists of names are finite tables checked by the kernel and lifted; everything about matrices is for all matrices. Without more information no result of the treatment is produced at all (same_information_refused). One combination is listed twice, without effect (listed_twice)."
  },
  {
   "property": "C154",
   "status": "proved",
   "theorems": [
    "Seyfert.Linalg.pinv_unique",
    "Seyfert.Linalg.transition_exists",
    "Seyfert.Linalg.transition_spec",
    "Seyfert.Linalg.transition_symmetric",
    "Seyfert.Linalg.transition_duplication"
   ],
   "note": "The pseudo-inverse is specified by the conditions of Penrose, over the real numbers; the cut-off of numpy for small singular values (1e-15 of the largest, where the ratio of these is at least 0.7) is not modelled."
  },
  {
   "property": "C155",
   "status": "partial",
   "theorems": [
    "Seyfert.Pk.external_read",
    "Seyfert.Pk.order_irrelevant",
    "Seyfert.Pk.overwrite_recovers",
    "Seyfert.Pk.evaluate_completes",
    "Seyfert.Pk.direct_refused",
    "Seyfert.Pk.tasks_refused",
    "Seyfert.Pk.no_external",
    "Seyfert.Pk.tasks_silent",
    "Seyfert.Pk.scenarios_mixed"
   ],
   "note": "Proved for all histories of one scenario. False for histories of two scenarios (scenarios_mixed), for starting a program again (direct_refused, tasks_refused; evaluate_final_results completes the run), for scenarios without an external matrix (no_external), and a forecast by tasks ends as if all was well when its results were not written (tasks_silent). Final results are one step here; their files are C152."
  },
  {
   "property": "C156",
   "status": "proved",
   "theorems": [
    "Seyfert.Fisher.results_ordered",
    "Seyfert.Fisher.difference_reversed",
    "Seyfert.Combos.shipped_treatments",
    "Seyfert.Combos.order_fails_for_differences"
   ],
   "note": "Exact real numbers. The order with fixed nuisance parameters needs that no parameter is cosmological in one matrix and nuisance in another. Differences with further terms are not ordered by these theorems."
  },
  {
   "property": "C157",
   "status": "proved",
   "theorems": [
    "Seyfert.Cov.larger_spectra",
    "Seyfert.Cov.larger_spectra_errors",
    "Seyfert.Cov.more_noise",
    "Seyfert.Cov.sky_fraction",
    "Seyfert.Cov.sky_errors"
   ],
   "note": "Exact real numbers. The shot noise and the fraction of the sky are varied independently, as the configuration does. That the stored spectra have the normalised form is C52 (`evaluate_spec`)."
  },
  {
   "property": "C158",
   "status": "partial",
   "theorems": [
    "Seyfert.PowerEval.spectra_of_last",
    "Seyfert.PowerEval.same_inputs",
    "Seyfert.PowerEval.cosmology_spectrum",
    "Seyfert.PowerEval.camb_spectrum",
    "Seyfert.PowerEval.class_spectrum",
    "Seyfert.PowerEval.tuned",
    "Seyfert.PowerEval.computation_keeps",
    "Seyfert.PowerEval.reference_kept",
    "Seyfert.PowerEval.unknown_code",
    "Seyfert.PowerEval.stale_transfer",
    "Seyfert.PowerEval.unknown_code_runs",
    "Seyfert.PowerEval.code_of_creation",
    "Seyfert.PowerEval.reference_overwritten",
    "Seyfert.PowerEval.class_rerun",
    "Seyfert.PowerEval.camb_missing"
   ],
   "note": "Proved for known codes. False: an object with an unknown code which has been computed before runs its old solver again, in the old directory, with the old transfer function and wave numbers; the code of the configuration is read only when the object is made (the call on a cosmology always makes a new one); a computation in the directory of the configurations overwrites the reference file. The theorem on CAMB assumes exact numbers, a sigma8 that goes with the root of the amplitude and is not 10 (the starting value of the loop)."
  },
  {
   "property": "C159",
   "status": "partial",
   "theorems": [
    "Seyfert.PowerJobs.at_same_time",
    "Seyfert.PowerJobs.ends_as_alone",
    "Seyfert.PowerJobs.alone_ends",
    "Seyfert.PowerJobs.references_kept",
    "Seyfert.PowerJobs.other_files",
    "Seyfert.PowerJobs.job_spectra",
    "Seyfert.PowerJobs.same_directory_mixes",
    "Seyfert.PowerJobs.stopped_in_config"
   ],
   "note": "Proved for jobs in directories of their own other than that of the configurations, as the jobs of a run are. False otherwise: in a shared directory a job computes its spectra with the ini file of another one, and a job stopped in the directory of the configurations leaves a reference file which makes all later computations fail. A file is taken to hold what its last writer has written of it."
  },
  {
   "property": "C16",
   "status": "proved",
   "theorems": [
    "Seyfert.Cov.fisher_spec",
    "Seyfert.Cov.fisher_symmetric",
    "Seyfert.Cov.fisher_nonneg",
    "Seyfert.Cov.fisher_total_nonneg"
   ],
   "note": "Labels sorted; closed formula; symmetric; nonnegative quadratic form."
  },
  {
   "property": "C160",
   "status": "partial",
   "theorems": [
    "Seyfert.ClDirect.direct_as_files_partial",
    "Seyfert.ClDirect.direct_steps",
    "Seyfert.ClDirect.direct_refused",
    "Seyfert.ClDirect.direct_not_as_files"
   ],
   "note": "Proved for flat runs. False for others: without files the universe is always taken to be flat, and a step whose densities do not add up to one is refused, while the files give its spectra. Power spectra are a function of parameters and flatness."
  },
  {
   "property": "C161",
   "status": "partial",
   "theorems": [
    "Seyfert.ResWrite.write_ends_iff",
    "Seyfert.ResWrite.written_partial",
    "Seyfert.ResWrite.kept",
    "Seyfert.ResWrite.stuck",
    "Seyfert.ResWrite.mixed"
   ],
   "note": "Proved: when writing ends, what it leaves, and that tables and matrices are never replaced. False: tables that are there are left without an error, so that a directory can hold the errors of one start and the matrices of another (mixed); and a directory with a matrix is never completed (stuck). Plots are left out and files are written as a whole."
  },
  {
   "property": "C17",
   "status": "proved",
   "theorems": [
    "Seyfert.Cov.fisher_spec",
    "Seyfert.Cov.fisher_auto",
    "Seyfert.Cov.fisher_total",
    "Seyfert.Cov.fisher_needs_tables",
    "Seyfert.Cov.fisher_needs_every_table"
   ],
   "note": ""
  },
  {
   "property": "C18",
   "status": "proved",
   "theorems": [
    "Seyfert.Ells.inter_spec",
    "Seyfert.Ells.inter_empty",
    "Seyfert.Ells.inter_perm",
    "Seyfert.Ells.union_spec",
    "Seyfert.Ells.union_perm"
   ],
   "note": ""
  },
  {
   "property": "C19",
   "status": "proved",
   "theorems": [
    "Seyfert.Ells.lin_spec",
    "Seyfert.Ells.lin_overshoot",
    "Seyfert.Ells.log_spec",
    "Seyfert.Ells.multipoles_reversed",
    "Seyfert.Ells.multipoles_bad_spacing",
    "Seyfert.Ells.multipoles_missing_n",
    "Seyfert.Ells.widths_recomputed"
   ],
   "note": "lin_overshoot shows why the linear statement needs an integer range."
  },
  {
   "property": "C20",
   "status": "proved",
   "theorems": [
    "Seyfert.Param.calls_frame",
    "Seyfert.Param.reset_fiducials",
    "Seyfert.Param.reset_forgets",
    "Seyfert.Param.update_central",
    "Seyfert.Param.update_effect",
    "Seyfert.Param.update_after_reset",
    "Seyfert.Param.flat_stays_flat"
   ],
   "note": "Exact arithmetic; the code compares and updates floats."
  },
  {
   "property": "C21",
   "status": "partial",
   "theorems": [
    "Seyfert.Param.refused_unchanged_partial",
    "Seyfert.Param.refused_unchanged_ok",
    "Seyfert.Param.update_refused_iff",
    "Seyfert.Param.refused_update_changes"
   ],
   "note": "False for a density of a flat model when flatness cannot be preserved: refused_update_changes gives the witness."
  },
  {
   "property": "C22",
   "status": "proved",
   "theorems": [
    "Seyfert.Param.stem_steps",
    "Seyfert.Param.step_order",
    "Seyfert.Param.valueFor_spec",
    "Seyfert.Param.stem_values"
   ],
   "note": "For positive displacements, as in every shipped input."
  },
  {
   "property": "C23",
   "status": "partial",
   "theorems": [
    "Seyfert.Param.file_roundtrip_partial",
    "Seyfert.Param.stem_roundtrip",
    "Seyfert.Param.file_only_cosmological",
    "Seyfert.Param.readJSON_merges",
    "Seyfert.Param.description_lost",
    "Seyfert.Param.zero_displacement_lost",
    "Seyfert.Param.construct_iff"
   ],
   "note": "False for descriptions, for the probe of a cosmological parameter and for a zero displacement; everything else survives."
  },
  {
   "property": "C24",
   "status": "partial",
   "theorems": [
    "Seyfert.Stem.fit_least_squares",
    "Seyfert.Stem.loop_spec",
    "Seyfert.Stem.stem_total",
    "Seyfert.Stem.stem_line",
    "Seyfert.Stem.loop_no_discard_partial",
    "Seyfert.Stem.vectorized_elementwise",
    "Seyfert.Stem.colLoop_spec",
    "Seyfert.Stem.vectorized_lines",
    "Seyfert.Stem.versions_differ"
   ],
   "note": "All parts proved except that the scalar version may discard points of an exact line when one of the values is exactly zero (the slope is still exact). The two versions keep different minimum numbers of points."
  },
  {
   "property": "C25",
   "status": "partial",
   "theorems": [
    "Seyfert.Stem.loop_scale",
    "Seyfert.Stem.stem_scale",
    "Seyfert.Stem.colLoop_scale_partial",
    "Seyfert.Stem.negative_never_trimmed",
    "Seyfert.Stem.vectorized_sign_dependent"
   ],
   "note": "Proved for the scalar version; false for the vectorised version that the pipeline uses."
  },
  {
   "property": "C26",
   "status": "partial",
   "theorems": [
    "Seyfert.Stem.computeDerivative_eq",
    "Seyfert.Stem.constant_derivative_partial",
    "Seyfert.Stem.piecewise_derivative_partial",
    "Seyfert.Stem.other_probe_derivative",
    "Seyfert.Stem.wrong_bin"
   ],
   "note": "False from bin 10 on: wrong_bin."
  },
  {
   "property": "C27",
   "status": "partial",
   "theorems": [
    "Seyfert.Names.parse_jobDir",
    "Seyfert.Names.jobDir_roundtrip_partial",
    "Seyfert.Names.jobDir_injective",
    "Seyfert.Names.large_step_misread",
    "Seyfert.Names.fisherDir_roundtrip"
   ],
   "note": "False for steps from ten on, which are read as their first digit; proved below ten."
  },
  {
   "property": "C28",
   "status": "proved",
   "theorems": [
    "Seyfert.Names.powerJobs_spec",
    "Seyfert.Names.angularJobs_spec",
    "Seyfert.Names.derivativeJobs_spec",
    "Seyfert.Names.jobs_refused",
    "Seyfert.Names.loaded_steps_ok"
   ],
   "note": ""
  },
  {
   "property": "C29",
   "status": "proved",
   "theorems": [
    "Seyfert.Fisher.write_no_target",
    "Seyfert.Fisher.write_existing",
    "Seyfert.Fisher.write_ok",
    "Seyfert.Fisher.history_keeps_files",
    "Seyfert.Fisher.write_load",
    "Seyfert.Fisher.load_forgets_flag",
    "Seyfert.Fisher.save_all",
    "Seyfert.Fisher.shipped_files_distinct",
    "Seyfert.Fisher.file_name_collision",
    "Seyfert.Fisher.table_existing",
    "Seyfert.Fisher.table_written",
    "Seyfert.Fisher.table_bad_suffix",
    "Seyfert.Fisher.file_name_clean",
    "Seyfert.Fisher.file_name_injective"
   ],
   "note": "HDF5 content as a record of datasets; file names of the shipped matrices proved distinct; different names can share a file name (file_name_collision)."
  },
  {
   "property": "C30",
   "status": "partial",
   "theorems": [
    "Seyfert.Batch.wait_spec",
    "Seyfert.Batch.failure_raises",
    "Seyfert.Batch.done_partial",
    "Seyfert.Batch.wait_ends",
    "Seyfert.Batch.returns_early",
    "Seyfert.Batch.returns_at_timeout",
    "Seyfert.Batch.other_users_ignored",
    "Seyfert.Batch.host_number_is_a_job",
    "Seyfert.Batch.parse_table",
    "Seyfert.Batch.parse_table_other",
    "Seyfert.Batch.countDown_iff",
    "Seyfert.Batch.getJobID_spec"
   ],
   "note": "The second half is proved. The first half is false: an empty answer, a user name with digits or capitals, and the maximum time all let the wait return with unfinished jobs; proved when every answer lists every job."
  },
  {
   "property": "C31",
   "status": "partial",
   "theorems": [
    "Seyfert.Resume.resume_same",
    "Seyfert.Resume.resume_completes_iff_partial",
    "Seyfert.Resume.stuck_forever",
    "Seyfert.Resume.finished_kept",
    "Seyfert.Resume.fresh_completes",
    "Seyfert.Resume.first_write_fatal",
    "Seyfert.Resume.derivatives_interrupted_fatal",
    "Seyfert.Resume.finished_again_fails",
    "Seyfert.Resume.stored_reused"
   ],
   "note": "Proved for every history of interruptions: a start that completes leaves the same files as an uninterrupted run, and complete files are never changed. Not every interruption is recovered from; the exact condition is proved, with the cases where no later start ever completes."
  },
  {
   "property": "C32",
   "status": "partial",
   "theorems": [
    "Seyfert.Orch.sort_spec",
    "Seyfert.Orch.binsOf_isSome",
    "Seyfert.Orch.binsOf_eq",
    "Seyfert.Orch.refused_iff",
    "Seyfert.Orch.one_per_combination",
    "Seyfert.Orch.run_arguments_partial",
    "Seyfert.Orch.external_replaces",
    "Seyfert.Orch.collect_iff",
    "Seyfert.Orch.collected_exact_partial",
    "Seyfert.Orch.older_collected",
    "Seyfert.Orch.zeros_missed",
    "Seyfert.Orch.run_settings"
   ],
   "note": "One run per combination at its place in the nested order, and the order of the forecast configurations, are proved. False of the code: external power spectra replace those of every combination (external_replaces); earlier directories beginning with a run id are collected too (older_collected), and the directory of a run with a numeric id with leading zeros is not (zeros_missed). Proved exactly otherwise."
  },
  {
   "property": "C33",
   "status": "proved",
   "theorems": [
    "Seyfert.Names.stamp_roundtrip",
    "Seyfert.Names.runId_roundtrip",
    "Seyfert.Names.splitRunId_sound",
    "Seyfert.Names.calendar",
    "Seyfert.Names.leap_count"
   ],
   "note": "Identifiers without newlines, years from 1000 on, versions of three single digits."
  },
  {
   "property": "C34",
   "status": "partial",
   "theorems": [
    "Seyfert.Numeric.integral_exact_partial",
    "Seyfert.Numeric.integral_real_partial",
    "Seyfert.Numeric.integral_constant",
    "Seyfert.Numeric.integral_linear",
    "Seyfert.Numeric.integral_refused",
    "Seyfert.Numeric.integral_nonneg",
    "Seyfert.Numeric.remainder_inexact",
    "Seyfert.Numeric.nonuniform_inexact"
   ],
   "note": "Exactness up to the order is false when the number of intervals is not a multiple of the order: the remaining intervals use a lower order. Everything else is proved."
  },
  {
   "property": "C35",
   "status": "proved",
   "theorems": [
    "Seyfert.Numeric.smoothstep_outside",
    "Seyfert.Numeric.smoothstep_mem",
    "Seyfert.Numeric.smoothstep_increasing",
    "Seyfert.Numeric.smoothstep_symm",
    "Seyfert.Numeric.topHat_spec",
    "Seyfert.Numeric.voidCut_spec"
   ],
   "note": "For every N, over the real numbers."
  },
  {
   "property": "C36",
   "status": "proved",
   "theorems": [
    "Seyfert.Numeric.stencil_exact",
    "Seyfert.Numeric.stencil_fifth",
    "Seyfert.Numeric.stencil_linear"
   ],
   "note": ""
  },
  {
   "property": "C37",
   "status": "partial",
   "theorems": [
    "Seyfert.Numeric.padArr_spec",
    "Seyfert.Numeric.padArr_detects",
    "Seyfert.Numeric.padTab_spec",
    "Seyfert.Numeric.padTab_nonneg_partial",
    "Seyfert.Numeric.padTab_negative",
    "Seyfert.Numeric.padArr_opposite",
    "Seyfert.Numeric.padTables_spec",
    "Seyfert.Numeric.padTab_value"
   ],
   "note": "False for tables: the difference is negative when the sum of the entries is, so it passes every threshold. Arrays are proved."
  },
  {
   "property": "C38",
   "status": "partial",
   "theorems": [
    "Seyfert.Config.combos_mem",
    "Seyfert.Config.combos_length",
    "Seyfert.Config.combos_sorted",
    "Seyfert.Config.combos_once",
    "Seyfert.Config.flag_order_partial",
    "Seyfert.Config.flag_found",
    "Seyfert.Config.flag_missing",
    "Seyfert.Config.flag_order_matters"
   ],
   "note": "combinations fully proved; the flag depends on the order when the table holds both orders with different values (flag_order_matters)"
  },
  {
   "property": "C39",
   "status": "partial",
   "theorems": [
    "Seyfert.Config.forecastEq_tells_partial",
    "Seyfert.Config.probeEq_tells",
    "Seyfert.Config.forecastEq_self",
    "Seyfert.Config.sky_ignored",
    "Seyfert.Config.par_equal_but_different",
    "Seyfert.Config.arrEq_broadcast"
   ],
   "note": "false of the code: sky fraction, displacements, free flags and methods are ignored; what equality does guarantee is proved"
  },
  {
   "property": "C40",
   "status": "partial",
   "theorems": [
    "Seyfert.Config.checkOpts_iff",
    "Seyfert.Config.newEditor_spec",
    "Seyfert.Config.history_irrelevant_partial",
    "Seyfert.Config.update_values",
    "Seyfert.Config.refused_late",
    "Seyfert.Config.history_matters",
    "Seyfert.Config.updateData_missing"
   ],
   "note": "false of the code: with gcph_minus_gcsp the bias file is left from before; excluding options are refused after the multipoles were changed"
  },
  {
   "property": "C41",
   "status": "partial",
   "theorems": [
    "Seyfert.TeX.known_name",
    "Seyfert.TeX.never_reported",
    "Seyfert.TeX.unknown_silent",
    "Seyfert.TeX.bias_name",
    "Seyfert.TeX.bias_collision",
    "Seyfert.TeX.names_distinct_partial",
    "Seyfert.TeX.par_roundtrip",
    "Seyfert.TeX.par_refused",
    "Seyfert.TeX.cosmology_roundtrip",
    "Seyfert.TeX.probe_single",
    "Seyfert.TeX.single_never_back",
    "Seyfert.TeX.combination",
    "Seyfert.TeX.combination_back_partial",
    "Seyfert.TeX.combination_renamed",
    "Seyfert.TeX.composed_name"
   ],
   "note": "unknown names are not reported and single probes are never translated back in the code; everything else proved"
  },
  {
   "property": "C42",
   "status": "proved",
   "theorems": [
    "Seyfert.PyDict.wrapper_is_map",
    "Seyfert.PyDict.wrapper_keys_distinct",
    "Seyfert.PyDict.wrapper_errors",
    "Seyfert.PyDict.wrapper_error_unchanged",
    "Seyfert.PyDict.wrapper_eq"
   ],
   "note": ""
  },
  {
   "property": "C43",
   "status": "partial",
   "theorems": [
    "Seyfert.Names.timeFormat_partial",
    "Seyfert.Names.ms_reach_1000"
   ],
   "note": "False: the rounded milliseconds may be 1000."
  },
  {
   "property": "C44",
   "status": "proved",
   "theorems": [
    "Seyfert.Redshift.overlap_refused",
    "Seyfert.Redshift.overlap_some",
    "Seyfert.Redshift.overlap_none",
    "Seyfert.Redshift.overlap_symm",
    "Seyfert.Redshift.overlaps_partition",
    "Seyfert.Redshift.noise_sum",
    "Seyfert.Redshift.noise_matrix_spec",
    "Seyfert.Redshift.noise_matrix_refused"
   ],
   "note": "Any ordered field; the integral of the density is an additive function of intervals."
  },
  {
   "property": "C45",
   "status": "proved",
   "theorems": [
    "Seyfert.Redshift.piecewise_values",
    "Seyfert.Redshift.piecewise_number",
    "Seyfert.Redshift.sorted_by_index",
    "Seyfert.Redshift.order_irrelevant",
    "Seyfert.Redshift.biasIndex_name",
    "Seyfert.Redshift.conditions_value"
   ],
   "note": "Any linear order of redshifts; numpy.piecewise modelled as last true condition, zero when none."
  },
  {
   "property": "C46",
   "status": "proved",
   "theorems": [
    "Seyfert.Kernel.kernel_symmetric",
    "Seyfert.Kernel.kernel_transpose",
    "Seyfert.Kernel.autoCl_value",
    "Seyfert.Kernel.autoCl_symmetric",
    "Seyfert.Kernel.skipping_leaves_diagonal",
    "Seyfert.Kernel.crossCl_value",
    "Seyfert.Kernel.crossCl_transpose",
    "Seyfert.Kernel.auto_eq_cross",
    "Seyfert.Kernel.cl_integrals"
   ],
   "note": "Any field, any integration functional."
  },
  {
   "property": "C47",
   "status": "partial",
   "theorems": [
    "Seyfert.Explorer.filter_iff",
    "Seyfert.Explorer.selected_recursive_partial",
    "Seyfert.Explorer.selected_flat_partial",
    "Seyfert.Explorer.pattern_replaces",
    "Seyfert.Explorer.unrecognised_selected",
    "Seyfert.Explorer.link_selected",
    "Seyfert.Explorer.groups_form2",
    "Seyfert.Explorer.groups_form3"
   ],
   "note": "False of the code with additional patterns (a name that matches them is selected although it follows no run-name pattern) and for symbolic links; proved otherwise, and the exact condition proved in general."
  },
  {
   "property": "C48",
   "status": "proved",
   "theorems": [
    "Seyfert.H5.open_keeps",
    "Seyfert.H5.write_refused",
    "Seyfert.H5.load_keeps",
    "Seyfert.H5.load_missing",
    "Seyfert.H5.save_keeps",
    "Seyfert.H5.save_written",
    "Seyfert.H5.save_taken",
    "Seyfert.H5.history_keeps",
    "Seyfert.H5.open_existing"
   ],
   "note": "For every mode, root and file content, and over every history of uses of a file; stronger than claimed, since write mode is refused on an existing file."
  },
  {
   "property": "C49",
   "status": "proved",
   "theorems": [
    "Seyfert.Boltzmann.groups_spec",
    "Seyfert.Boltzmann.groups_minimal",
    "Seyfert.Boltzmann.run_rows"
   ],
   "note": "The float division n/150 is exact in the model."
  },
  {
   "property": "C50",
   "status": "partial",
   "theorems": [
    "Seyfert.Boltzmann.camb_closure",
    "Seyfert.Boltzmann.class_matter",
    "Seyfert.Boltzmann.class_closure_partial",
    "Seyfert.Boltzmann.class_not_closed"
   ],
   "note": "CAMB proved. For CLASS the curvature is rounded to six digits, so the sum is one only up to half a millionth."
  },
  {
   "property": "C51",
   "status": "partial",
   "theorems": [
    "Seyfert.Boltzmann.round_trip_partial",
    "Seyfert.Boltzmann.reread",
    "Seyfert.Boltzmann.updated_file",
    "Seyfert.Boltzmann.value_with_equals",
    "Seyfert.Boltzmann.unreadable_lost"
   ],
   "note": "False for values containing an equals sign and for names that are empty or start with #; proved otherwise, and proved for every text that has been read."
  },
  {
   "property": "C52",
   "status": "proved",
   "theorems": [
    "Seyfert.Cov.noise_spec",
    "Seyfert.Cov.evaluate_spec",
    "Seyfert.Cov.evaluate_total",
    "Seyfert.Cov.evaluate_again",
    "Seyfert.Cov.noise_file_roundtrip",
    "Seyfert.Cov.covariance_gaussian",
    "Seyfert.Cov.xc_spec",
    "Seyfert.Cov.xc_needs_all",
    "Seyfert.Cov.xcName_roundtrip",
    "Seyfert.Cov.xcSets_spec"
   ],
   "note": "Surface densities are parameters; the square root is a parameter with its defining property."
  },
  {
   "property": "C53",
   "status": "proved",
   "theorems": [
    "Seyfert.Fisher.fom_det",
    "Seyfert.Fisher.fom_invariant",
    "Seyfert.Fisher.relErr_spec",
    "Seyfert.Fisher.relErr_nonneg",
    "Seyfert.Fisher.relErr_some_iff",
    "Seyfert.Fisher.relFom_spec"
   ],
   "note": "Exact arithmetic in an ordered field, square root as a parameter."
  },
  {
   "property": "C54",
   "status": "proved",
   "theorems": [
    "Seyfert.PyDict.mapNested_spec",
    "Seyfert.PyDict.mapNested_comp",
    "Seyfert.PyDict.subset_spec"
   ],
   "note": ""
  },
  {
   "property": "C55",
   "status": "proved",
   "theorems": [
    "Seyfert.Units.inverse_pairs",
    "Seyfert.Units.reference_values",
    "Seyfert.Units.counts_invariant",
    "Seyfert.Units.whole_sphere"
   ],
   "note": "Over the real numbers."
  },
  {
   "property": "C56",
   "status": "partial",
   "theorems": [
    "Seyfert.Keys.stored_key_false",
    "Seyfert.Keys.stored_key_partial"
   ],
   "note": "False when only the reversed pair is stored (negation proved)."
  },
  {
   "property": "C57",
   "status": "partial",
   "theorems": [
    "Seyfert.Fisher.correlation_partial",
    "Seyfert.Fisher.correlation_after_marg"
   ],
   "note": "False after marginalisation when the set is iterated out of sorted order."
  },
  {
   "property": "C58",
   "status": "partial",
   "theorems": [
    "Seyfert.Fisher.failed_op_unchanged_partial",
    "Seyfert.Fisher.marg_failure_corrupts",
    "Seyfert.Fisher.marg_unknown",
    "Seyfert.Fisher.marg_singular",
    "Seyfert.Fisher.fix_unknown"
   ],
   "note": "False for in-place marginalisation with a singular restricted inverse."
  },
  {
   "property": "C59",
   "status": "proved",
   "theorems": [
    "Seyfert.Fisher.loaded_unchanged",
    "Seyfert.Fisher.final_results",
    "Seyfert.Fisher.final_results_succeed",
    "Seyfert.Fisher.sum_posDef",
    "Seyfert.Fisher.deepcopy_spec",
    "Seyfert.Fisher.final_results_succeed_of"
   ],
   "note": "Writing of the result files is not part of this model."
  },
  {
   "property": "C60",
   "status": "proved",
   "theorems": [
    "Seyfert.Fisher.ellipse_contour",
    "Seyfert.Fisher.ellipse_axes",
    "Seyfert.Fisher.range_projection"
   ],
   "note": "Over the reals; the confidence factor sqrt(2)*erfinv(CL) is a positive parameter."
  },
  {
   "property": "C61",
   "status": "proved",
   "theorems": [
    "Seyfert.Cov.covariance_posDef",
    "Seyfert.Cov.covariance_det_ne",
    "Seyfert.Cov.covariance_repeated",
    "Seyfert.Cov.ready_of_posDef"
   ],
   "note": "Over the real numbers."
  },
  {
   "property": "C62",
   "status": "proved",
   "theorems": [
    "Seyfert.Cov.fisher_spec",
    "Seyfert.Cov.fisher_refused"
   ],
   "note": ""
  },
  {
   "property": "C63",
   "status": "partial",
   "theorems": [
    "Seyfert.Param.write_readable_partial",
    "Seyfert.Param.failed_write_destroys"
   ],
   "note": "False: a write that raises has already truncated the file; failed_write_destroys says exactly when."
  },
  {
   "property": "C64",
   "status": "proved",
   "theorems": [
    "Seyfert.Param.freeForProbe_spec"
   ],
   "note": ""
  },
  {
   "property": "C65",
   "status": "partial",
   "theorems": [
    "Seyfert.Names.collect_in_order_partial",
    "Seyfert.Names.values_in_order",
    "Seyfert.Names.misaligned"
   ],
   "note": "False from ten displacements on; proved up to nine."
  },
  {
   "property": "C66",
   "status": "proved",
   "theorems": [
    "Seyfert.Config.fileName_inj",
    "Seyfert.Config.configID_inj"
   ],
   "note": "options in the order of the generating script"
  },
  {
   "property": "C67",
   "status": "partial",
   "theorems": [
    "Seyfert.Config.initFile_found_partial",
    "Seyfert.Config.initFile_missing"
   ],
   "note": "false of the code: a missing file is never reported"
  },
  {
   "property": "C68",
   "status": "partial",
   "theorems": [
    "Seyfert.Redshift.constant_values_partial",
    "Seyfert.Redshift.constant_order_matters"
   ],
   "note": "False of the code: values are taken in storage order. Proved when this is the order of the bins."
  },
  {
   "property": "C69",
   "status": "partial",
   "theorems": [
    "Seyfert.Kernel.fresh_kernel_partial",
    "Seyfert.Kernel.evaluated_kept",
    "Seyfert.Kernel.stale_weights"
   ],
   "note": "False of the code: weights are evaluated once only. Proved for weights not evaluated before."
  },
  {
   "property": "C70",
   "status": "proved",
   "theorems": [
    "Seyfert.Kernel.rule_accepted",
    "Seyfert.Kernel.rule_order"
   ],
   "note": "log2 modelled exactly."
  },
  {
   "property": "C71",
   "status": "partial",
   "theorems": [
    "Seyfert.Boltzmann.tune_partial",
    "Seyfert.Boltzmann.tune_skipped",
    "Seyfert.Boltzmann.tune_converged"
   ],
   "note": "False when the requested value is the starting guess 10, which is then taken as reached."
  },
  {
   "property": "C72",
   "status": "partial",
   "theorems": [
    "Seyfert.H5.save_new_partial",
    "Seyfert.H5.failed_save_mixes",
    "Seyfert.H5.save_keeps"
   ],
   "note": "False of the code: failed_save_mixes leaves the attributes of the refused object beside the data of the earlier one. Proved: groups and data sets are always kept, and saving distinct names to a new file does not fail."
  },
  {
   "property": "C73",
   "status": "partial",
   "theorems": [
    "Seyfert.Orch.ids_differ_partial",
    "Seyfert.Orch.runId_parts",
    "Seyfert.Orch.ids_clash",
    "Seyfert.Orch.pmm_named",
    "Seyfert.Orch.stem_spec"
   ],
   "note": "False of the code: parts are joined with underscores they may themselves contain (ids_clash). Proved when the parts after the first contain none."
  },
  {
   "property": "C74",
   "status": "partial",
   "theorems": [
    "Seyfert.Orch.command_words_partial",
    "Seyfert.Orch.space_splits"
   ],
   "note": "False of the code for values with spaces (space_splits); proved for values without spaces. Quotes and special characters of the shell are not modelled."
  },
  {
   "property": "C75",
   "status": "partial",
   "theorems": [
    "Seyfert.Fisher.fisher_equality_partial",
    "Seyfert.Fisher.fisher_equality_equivalence",
    "Seyfert.Fisher.equal_but_different",
    "Seyfert.Fisher.check_spec",
    "Seyfert.Fisher.check_accepts_permuted",
    "Seyfert.Fisher.equal_same_declared"
   ],
   "note": "Proved for well-formed matrices with the same parameters. False otherwise: matrices with different parameters raise ValueError instead of comparing as different (second half of fisher_equality_partial), equality ignores the division into cosmological and nuisance parameters (equal_but_different), and the check accepts permuted columns (check_accepts_permuted)."
  },
  {
   "property": "C76",
   "status": "proved",
   "theorems": [
    "Seyfert.Fisher.fix_errors_le",
    "Seyfert.Fisher.add_errors_le",
    "Seyfert.Fisher.unmarg_le_marg"
   ],
   "note": "Real positive definite matrices whose inverse has not been evaluated before (for stale inverses see C12). Uses Real.sqrt."
  },
  {
   "property": "C77",
   "status": "partial",
   "theorems": [
    "Seyfert.Fisher.prior_spec",
    "Seyfert.Fisher.prior_zero",
    "Seyfert.Fisher.prior_errors_partial"
   ],
   "note": "Proved when the inverse has not been evaluated before the prior is added; an already cached inverse is kept, and the errors then reported are those without the prior (stale_errors, C12)."
  },
  {
   "property": "C78",
   "status": "partial",
   "theorems": [
    "Seyfert.Work.inputs_ok_iff",
    "Seyfert.Work.inputs_frame",
    "Seyfert.Work.inputs_exact",
    "Seyfert.Work.inputs_kept_partial",
    "Seyfert.Work.inputs_collide",
    "Seyfert.Work.inputs_mixed",
    "Seyfert.Work.inputs_deterministic"
   ],
   "note": "Proved when the files have different names. Two files with one name overwrite each other (inputs_collide), and a set-up that fails in an existing directory leaves a mixture of old and new files (inputs_mixed)."
  },
  {
   "property": "C79",
   "status": "partial",
   "theorems": [
    "Seyfert.Work.link_never_replaces",
    "Seyfert.Work.link_unknown_task",
    "Seyfert.Work.link_success",
    "Seyfert.Work.link_only",
    "Seyfert.Work.link_succeeds",
    "Seyfert.Work.link_twice",
    "Seyfert.Work.link_missing",
    "Seyfert.Work.link_delta_lost",
    "Seyfert.Work.power_dir_ignored",
    "Seyfert.Work.given_dirs_linked",
    "Seyfert.Work.prepare_occupied"
   ],
   "note": "Repeating after a failure can leave the link to the delta file out (link_delta_lost), and the option for external power spectra has no effect in do_forecast (power_dir_ignored)."
  },
  {
   "property": "C80",
   "status": "partial",
   "theorems": [
    "Seyfert.Runner.run_exact",
    "Seyfert.Runner.run_once",
    "Seyfert.Runner.run_dependencies",
    "Seyfert.Runner.results_last",
    "Seyfert.Runner.dry_run_partial",
    "Seyfert.Runner.dry_run_computes",
    "Seyfert.Runner.report_never"
   ],
   "note": "With execution 'no' the densities are computed and written when angular spectra are requested without power spectra (dry_run_computes). The report on batch jobs is never written (report_never)."
  },
  {
   "property": "C81",
   "status": "partial",
   "theorems": [
    "Seyfert.Runner.jobs_exact",
    "Seyfert.Runner.jobs_completed_partial",
    "Seyfert.Runner.silent_failure",
    "Seyfert.Runner.warning_is_failure"
   ],
   "note": "Success is judged by the error stream, not by the exit code: failing silently counts as success (silent_failure), a warning counts as failure (warning_is_failure). The full claim holds for jobs that write to the error stream exactly when they fail."
  },
  {
   "property": "C82",
   "status": "partial",
   "theorems": [
    "Seyfert.Runner.cleanup_exact",
    "Seyfert.Runner.cleanup_refused",
    "Seyfert.Runner.cleanup_keeps",
    "Seyfert.Runner.cleanup_partial",
    "Seyfert.Runner.cleanup_leaves"
   ],
   "note": "Proved for steps below ten. From ten on some directories are left (cleanup_leaves). The removal also happens when execution is 'no' and nothing was computed."
  },
  {
   "property": "C83",
   "status": "partial",
   "theorems": [
    "Seyfert.Runner.rundir_new",
    "Seyfert.Runner.rundir_refused",
    "Seyfert.Runner.rundir_test_destroys",
    "Seyfert.Runner.duration_partial",
    "Seyfert.Runner.duration_wraps",
    "Seyfert.Runner.forecast_dirs_partial",
    "Seyfert.Runner.forecast_dirs_shared",
    "Seyfert.Runner.job_memory",
    "Seyfert.Runner.fisher_memory_fixed"
   ],
   "note": "Test mode empties the directory of the previous run (rundir_test_destroys). Whole days are missing in the duration (duration_wraps). Forecasts of one batch job share a directory (forecast_dirs_shared). Jobs of the Fisher task ignore the memory asked for (fisher_memory_fixed)."
  },
  {
   "property": "C84",
   "status": "partial",
   "theorems": [
    "Seyfert.Runner.flag_on_command_line",
    "Seyfert.Runner.ini_unknown",
    "Seyfert.Runner.ini_wins",
    "Seyfert.Runner.ini_false_is_true",
    "Seyfert.Runner.ini_cores_refused",
    "Seyfert.Runner.options_accepted",
    "Seyfert.Runner.run_id_changed",
    "Seyfert.Runner.convert_spec",
    "Seyfert.Runner.flag_off_iff"
   ],
   "note": "Values of the ini file are not converted: False counts as true (ini_false_is_true) and a number of cores is always refused (ini_cores_refused). Identifiers made of digits lose leading zeros on the command line (run_id_changed)."
  },
  {
   "property": "C85",
   "status": "partial",
   "theorems": [
    "Seyfert.Runner.job_config_partial",
    "Seyfert.Runner.resumed_config_differs"
   ],
   "note": "Proved for new runs with files of different names. In a continued run the jobs use the files of the command line whatever is recorded (resumed_config_differs)."
  },
  {
   "property": "C86",
   "status": "partial",
   "theorems": [
    "Seyfert.Runner.variations_spec",
    "Seyfert.Runner.variations_succeed",
    "Seyfert.Runner.seven_steps_partial",
    "Seyfert.Runner.too_few_displacements",
    "Seyfert.Runner.too_many_displacements",
    "Seyfert.Runner.failed_step_stays"
   ],
   "note": "The steps are fixed in the code. With fewer than seven displacements the computation fails (too_few_displacements), with more some are left out (too_many_displacements). After a failure the displaced values stay (failed_step_stays)."
  },
  {
   "property": "C87",
   "status": "partial",
   "theorems": [
    "Seyfert.Background.roundEven_zero_iff",
    "Seyfert.Background.check_iff",
    "Seyfert.Background.create_together",
    "Seyfert.Background.accepted_not_flat",
    "Seyfert.Background.factor_darkEnergy",
    "Seyfert.Background.darkEnergy_eq",
    "Seyfert.Background.friedmann",
    "Seyfert.Background.hubble_today",
    "Seyfert.Background.hubble_pos_partial",
    "Seyfert.Background.hubble_undefined",
    "Seyfert.Background.rTilde_deriv",
    "Seyfert.Background.distance_spec",
    "Seyfert.Background.distance_unique",
    "Seyfert.Background.distance_scale",
    "Seyfert.Background.radicand_mono",
    "Seyfert.Background.not_phantom",
    "Seyfert.Background.omegaM_spec",
    "Seyfert.Background.growth_spec",
    "Seyfert.Background.growth_matter"
   ],
   "note": "Flatness is checked to ten decimals only, and parameters are accepted for which the Hubble parameter is not a number (accepted_not_flat, hubble_undefined). The equations are proved where the density is positive."
  },
  {
   "property": "C88",
   "status": "partial",
   "theorems": [
    "Seyfert.Background.growth_from_spectrum_partial",
    "Seyfert.Background.growth_not_one_today",
    "Seyfert.Background.rescale_spec",
    "Seyfert.Background.rescale_twice",
    "Seyfert.Background.rescale_own",
    "Seyfert.Background.evaluate_fresh",
    "Seyfert.Background.evaluate_fails",
    "Seyfert.Background.background_stale"
   ],
   "note": "False of the code: what was evaluated is kept when parameters change (background_stale), and the growth is one at the first redshift of the grid, not today (growth_not_one_today)."
  },
  {
   "property": "C89",
   "status": "partial",
   "theorems": [
    "Seyfert.Density.gauss_total",
    "Seyfert.Density.response_nonneg",
    "Seyfert.Density.response_pos",
    "Seyfert.Density.response_total",
    "Seyfert.Density.bins_at_most_total",
    "Seyfert.Density.normalised_spec",
    "Seyfert.Density.binNorm_pos",
    "Seyfert.Density.normalised_probability",
    "Seyfert.Density.normalised_scale",
    "Seyfert.Density.given_not_normalised",
    "Seyfert.Density.surface_sum",
    "Seyfert.Density.shotNoise_spec",
    "Seyfert.Density.evaluate_order",
    "Seyfert.Density.total_unknown",
    "Seyfert.Density.total_methods"
   ],
   "note": "Densities given per bin are used as they are (given_not_normalised), and a bin without galaxies gives values that are not numbers."
  },
  {
   "property": "C90",
   "status": "partial",
   "theorems": [
    "Seyfert.Weights.simps_add",
    "Seyfert.Weights.simps_local",
    "Seyfert.Weights.uniform_tame",
    "Seyfert.Weights.simps_nonneg",
    "Seyfert.Weights.simps_negative",
    "Seyfert.Weights.simps_exact",
    "Seyfert.Weights.simps_exact_even",
    "Seyfert.Weights.efficiency_behind",
    "Seyfert.Weights.efficiency_end",
    "Seyfert.Weights.efficiency_nonneg",
    "Seyfert.Weights.lensing_linear",
    "Seyfert.Weights.lensing_nonneg",
    "Seyfert.Weights.lensing_ia_end",
    "Seyfert.Weights.ia_amplitude",
    "Seyfert.Weights.efficiencyCall_iff",
    "Seyfert.Weights.density_linear",
    "Seyfert.Weights.lookups_some",
    "Seyfert.Weights.lookups_mem",
    "Seyfert.Weights.finish_iff",
    "Seyfert.Weights.setupBias_iff",
    "Seyfert.Weights.setupBias_none",
    "Seyfert.Weights.density_fresh_partial",
    "Seyfert.Weights.density_stale",
    "Seyfert.Weights.lensing_value",
    "Seyfert.Weights.ia_value"
   ],
   "note": "False on some uneven grids, where Simpson's rule gives a negative integral of a positive function (simps_negative); the density of an earlier grid is kept (density_stale); a single redshift is refused with Simpson's rule."
  },
  {
   "property": "C91",
   "status": "partial",
   "theorems": [
    "Seyfert.Spectra.newtonCotes_positive",
    "Seyfert.Spectra.simpson_positive",
    "Seyfert.Spectra.gram_posSemidef",
    "Seyfert.Spectra.spectrum_value",
    "Seyfert.Spectra.spectra_posSemidef_partial",
    "Seyfert.Spectra.cauchy_schwarz",
    "Seyfert.Spectra.covariance_invertible",
    "Seyfert.Spectra.skipping_breaks",
    "Seyfert.Spectra.spectrum_scale"
   ],
   "note": "False when spectra between different spectroscopic bins are left out while those with other probes are kept (skipping_breaks). Proved otherwise, for Newton-Cotes rules of every order and Simpson's rule on tame grids."
  },
  {
   "property": "C92",
   "status": "partial",
   "theorems": [
    "Seyfert.Ext.parse_variation",
    "Seyfert.Ext.parse_fiducial",
    "Seyfert.Ext.misread_as_fiducial",
    "Seyfert.Ext.readTable_correct",
    "Seyfert.Ext.readTable_upwards",
    "Seyfert.Ext.readTable_refused",
    "Seyfert.Ext.convertSpec_spec",
    "Seyfert.Ext.convertAll_spec",
    "Seyfert.Ext.convertAll_iff",
    "Seyfert.Ext.converted_distinct",
    "Seyfert.Ext.checkPars_iff",
    "Seyfert.Ext.parNames_meaning"
   ],
   "note": "Proved for names and tables of the documented form. False in general: a displacement with one more digit counts as fiducial, redshifts listed upwards are swapped, and surplus parameters raise instead of being removed."
  },
  {
   "property": "C93",
   "status": "partial",
   "theorems": [
    "Seyfert.Ext.pairs_found",
    "Seyfert.Ext.pairs_found_decimal",
    "Seyfert.Ext.compact_misread",
    "Seyfert.Ext.stray_digit_misread",
    "Seyfert.Ext.indices_eq",
    "Seyfert.Ext.readRow_cross",
    "Seyfert.Ext.readRow_auto",
    "Seyfert.Ext.readRow_length",
    "Seyfert.Ext.readCl_cross"
   ],
   "note": "Proved for headers whose pairs are separated by one character. False for headers with other digits or without separators, and one column is spread over all pairs."
  },
  {
   "property": "C94",
   "status": "partial",
   "theorems": [
    "Seyfert.Ext.newName_bias",
    "Seyfert.Ext.newName_injective",
    "Seyfert.Ext.newName_collision",
    "Seyfert.Ext.readFisher_spec",
    "Seyfert.Ext.readFisher_by_name",
    "Seyfert.Ext.fisherName_spec",
    "Seyfert.Ext.pessimistic_refused",
    "Seyfert.Ext.newName_meaning",
    "Seyfert.Ext.fisherNames_meaning"
   ],
   "note": "Entries are kept for all columns; names of files are recognised only if the next letter is not one of the letters of the names."
  },
  {
   "property": "C95",
   "status": "partial",
   "theorems": [
    "Seyfert.Reparam.T1_ok_iff",
    "Seyfert.Reparam.T1_information",
    "Seyfert.Reparam.coords_add",
    "Seyfert.Reparam.T1_covariance",
    "Seyfert.Reparam.T1_cosmology",
    "Seyfert.Reparam.drop_spec",
    "Seyfert.Reparam.final_spec",
    "Seyfert.Reparam.final_degenerate",
    "Seyfert.Reparam.newLabel_injective",
    "Seyfert.Reparam.many_bins_refused",
    "Seyfert.Reparam.alignment_refused",
    "Seyfert.Reparam.codeKey_iff",
    "Seyfert.Reparam.collect_spec",
    "Seyfert.Reparam.collect_all",
    "Seyfert.Reparam.collect_refused",
    "Seyfert.Reparam.file_dropped",
    "Seyfert.Reparam.subdir_spec",
    "Seyfert.Reparam.deltas_mean_sum",
    "Seyfert.Reparam.deltas_mean_units",
    "Seyfert.Reparam.delta_back",
    "Seyfert.Reparam.median_spec",
    "Seyfert.Reparam.deltas_median_half",
    "Seyfert.Reparam.table_errors",
    "Seyfert.Reparam.changed_errors",
    "Seyfert.Reparam.isBias_iff",
    "Seyfert.Reparam.newLabel_spec"
   ],
   "note": "The change of parameters is proved for every successful run. It fails for more than ten photometric bins and for parameters of intrinsic alignment (many_bins_refused, alignment_refused), and a second file of the same code replaces the first in silence (file_dropped)."
  },
  {
   "property": "C96",
   "status": "partial",
   "theorems": [
    "Seyfert.Compare.version_found",
    "Seyfert.Compare.version_of_name",
    "Seyfert.Compare.dev_refused",
    "Seyfert.Compare.major_misread",
    "Seyfert.Compare.minor_refused",
    "Seyfert.Compare.reader_spec",
    "Seyfert.Compare.prerelease_older",
    "Seyfert.Compare.contains_iff",
    "Seyfert.Compare.central_not_collected",
    "Seyfert.Compare.fiducial_not_loaded",
    "Seyfert.Compare.spectra_loaded_partial",
    "Seyfert.Compare.comparison_fails",
    "Seyfert.Compare.report_spec",
    "Seyfert.Compare.report_agreement_partial",
    "Seyfert.Compare.nothing_compared",
    "Seyfert.Compare.compTable_spec",
    "Seyfert.Compare.meanPad_zero",
    "Seyfert.Compare.no_difference_partial",
    "Seyfert.Compare.difference_unseen",
    "Seyfert.Compare.odmPad_spec",
    "Seyfert.Compare.reader_letter"
   ],
   "note": "False of the code in several places: the fiducial spectra are never loaded (fiducial_not_loaded), versions in other places or with other digits are misread (version_of_name, dev_refused, major_misread, minor_refused, prerelease_older), the comparison of errors always fails for runs of this program (comparison_fails), runs without common tables pass (nothing_compared), and differences below the diagonal of cross spectra are not shown (difference_unseen). Proved: the rest."
  },
  {
   "property": "C97",
   "status": "partial",
   "theorems": [
    "Seyfert.Compare.glob_iff",
    "Seyfert.Compare.load_refused",
    "Seyfert.Compare.load_expected",
    "Seyfert.Compare.errors_found",
    "Seyfert.Compare.two_analyses_refused",
    "Seyfert.Compare.corr_name",
    "Seyfert.Compare.corr_refused"
   ],
   "note": "False of the code: the loader looks for names that the program does not write (load_refused), and correlations of matrices with an underscore are looked up under another name (corr_refused). Proved: which names are found, that the collector finds the tables, and that two analyses are refused."
  },
  {
   "property": "C98",
   "status": "partial",
   "theorems": [
    "Seyfert.Collector.errors_table",
    "Seyfert.Collector.missing_table_refused",
    "Seyfert.Collector.no_runs_refused",
    "Seyfert.Collector.option_overwrites",
    "Seyfert.Collector.tables_agree",
    "Seyfert.Collector.analyses_refused",
    "Seyfert.Collector.analyses_by_name_partial",
    "Seyfert.Collector.analyses_misplaced",
    "Seyfert.Collector.analyses_shifted"
   ],
   "note": "False of the code: options in another order are put into wrong columns (analyses_misplaced), a run with fewer options shifts its analysis (analyses_shifted), an option named like a parameter replaces its errors (option_overwrites). Proved: the table of errors, the table of analyses for equal options, and when it is refused."
  },
  {
   "property": "C99",
   "status": "partial",
   "theorems": [
    "Seyfert.Collector.query_spec_partial",
    "Seyfert.Collector.query_text",
    "Seyfert.Collector.query_empty",
    "Seyfert.Collector.subset_analysis",
    "Seyfert.Collector.subset_refused",
    "Seyfert.Collector.replace_spec",
    "Seyfert.Collector.replace_missing",
    "Seyfert.Collector.replace_stuck",
    "Seyfert.Collector.replace_idempotent",
    "Seyfert.Collector.relative_stale",
    "Seyfert.Collector.pyEq_iff"
   ],
   "note": "False of the code: rows cannot be selected by texts (query_text), relative errors are not replaced (relative_stale), after a failure every further replacement fails (replace_stuck). Proved: the rest."
  }
 ]
}