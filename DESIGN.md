# Formal model of SEYFERT in Lean 4

## Layout

* `lean/Verif/Model/*.lean`: transcription of functions of `/repo/seyfert`. Each definition cites the file and lines it models and says where it simplifies.
* `lean/Verif/Spec/*.lean`: small specifications used in statements, independent of the model's helpers. Shorter ones stand in the `Props` files next to the theorem that uses them.
* `lean/Verif/Lemmas/*.lean`: helper lemmas.
* `lean/Verif/Props/*.lean`: the property theorems. Next to them, an `example` shows a case that meets the hypotheses.
* `properties.jsonl`: the properties in words. `MANIFEST.json`: which theorems prove which property.
* `seeded/LOG.jsonl`: experiments with deliberately wrong versions of the model.

## Modelling conventions

* Python exceptions are values of `Except`. A method that changes an object returns the new object also when it raises, so that a change made before the exception is visible.
* Python strings are lists of characters, restricted to what the code does with ASCII.
* Python dictionaries are association lists with distinct keys in insertion order.
* Python sets are finite sets. The order in which a set is iterated is left open by the language. It is a parameter of each definition that iterates, and theorems hold for every order.
* Objects shared by reference (Fisher matrices in dictionaries) live on an explicit heap.
* Floats are elements of a field, an ordered field, the rationals or the reals, as each definition says. Rounding, NaN and infinities are outside the model.
* numpy arrays are functions of indices with a shape, or lists. pandas frames are labels with an entry for each pair of labels.
* Loops that need not end (`count_down`, waiting for jobs, trimming) are modelled by well-founded recursion or by steps against an arbitrary sequence of answers.
* Crashes are modelled in `Model/Resume.lean`: a run is a program of single changes of the run directory, and may stop before any of them or in the middle of writing a file.

## Trusted base

* Lean's kernel (Lean 4.33.0) and the definitions of Mathlib that statements use.
* The axioms `propext`, `Classical.choice` and `Quot.sound`, and no others. The last section lists the axioms of each theorem. There is no `sorry`, no axiom of our own, no `native_decide` and no `bv_decide`.
* The reading of the Python source, documented by the comment of each definition. The code has not been run.
* The behaviour of libraries as the comments state it: numpy (indexing, `ravel`, `isclose`, `union1d`, `intersect1d`, `polyfit` as least squares, `linalg.inv` as the inverse or an error), pandas (label indexing, assignment), h5py (open modes, errors of `create_group` and `create_dataset`), `json`, `re`, `itertools`, `pathlib`.

## What is modelled

| Source | Model | Modelled functions |
|---|---|---|
| `fisher/linalg_tools.py` | `Linalg`, `Transition` | all; the pseudo-inverse of numpy as a relation |
| `utils/shortcuts.py`, `base_structs/cl_dict.py` | `Keys` | key classes, probe names, conversions, key dictionaries, lookup with transposition |
| `fisher/datavector.py` | `DataVector` | all |
| `fisher/fisher_matrix.py` | `Fisher`, `FisherIO` | all but `__repr__` |
| `fisher/final_results_core.py`, `fisher/fisher_analysis.py` | `FisherStore`, `FisherIO`, `Ellipse`, `AnalysisLife` | combinations, base and working matrices, loading, order, final results, relative errors, figure of merit, contours; not the table formatting |
| `fisher/fisher_evaluator.py`, `fisher/delta_cl.py`, `fisher/fisher_utils.py`, parts of `main/` | `Covariance`, `DeltaCl`, `Evaluator`, `FisherInputs` | covariance blocks, noise, normalisation, Fisher sum, life of the collection; not logging |
| `fisher/fisher_results.py` | `Results`, `Plot`, `FisherIO`, `ResultsWrite` | settings, analyses of all cosmologies, the order in which results are written; the tables that are read back as names of files only |
| `notebook_helpers/table_helpers.py` | `Tables` | selection, differences, replacement, cells of a row; not the writing of LaTeX and Excel files |
| `main/orchestration.py` L19-87, L217-239, `config/cmd_line.py` L227-238, `bin/orchestrate_run` | `OrchInputs` | all; directories within the sub-directories left out |
| `main/task_runners.py` L273-365, `main/fisher_core.py` L37-98, `fisher/fisher_utils.py` L84-94, `data/fishers/selected_datavectors.txt` | `FisherTask` | jobs as steps on files; values are parameters |
| `gui/interface_window.py` L44-210, `gui/gui_core.py` (fields of the window), `config/probe_config.py` L71-120 on the level of JSON | `Gui` | layout, Qt and event handling left out |
| `main/fisher_core.py` L36-98 (values computed by the jobs) | `FisherCore` | an evaluation that raises is a value `failed`; unreachable under the hypotheses of C123 |
| `bin/run_seyfert`, `main/seyfert_core.py` L186-235 | `RunSeyfert` | short option names, abbreviations, `--a=b`; characters special to the shell; links and `..` in paths; logs, failures of forecasts and submissions |
| `bin/compute_pmm`, `bin/compute_cls`, `bin/compute_derivatives`, `main/task_runners.py` L90-145, L178-270 | `Cli`, `JobRuns` | files partly written; log files; the ini file of CAMB; failing `source` of a virtual environment; the `standalone` branch; other spectra files in a job directory |
| `bin/evaluate_final_results`, `main/task_runners.py` L579-594, `config/cmd_line.py` L141-168, L226-238 | `Cli`, `FinalJobs` | the log file; run directories whose results raise; shell quoting |
| `utils/general_utils.py` L138-160 and the `__eq__` of the classes of `cosmology/` and of `fisher/delta_cl.py` | `Equality` | NaN; lists as attributes; the printing |
| `main/fisher_core.py`, `fisher/fisher_evaluator.py`: independent probes | `FisherCore`, `Evaluator` (specification `Independence`) | as for C123 |
| `utils/workspace.py` L116-182, `utils/filesystem_utils.py` L140-146, `main/fisher_core.py` L17-25: finding results | `Lookup` | not the other getters of result files |
| `seyfert.py` L30-128: class `Seyfert` | `Session` | the directory of the repository and the current one are parameters; no command line |
| `config/main_config.py` L16-194 | `TaskConfig` | JSON texts, `camb_ini_path`, lists of pairs in place of dictionaries |
| `file_io/ext_input.py` L118-206 | `SCamera` | creating the directory named after the time |
| `bin/compare_runs`, `utils/run_loader.py` | `RunCompare` | `loadConfigs`, `evaluatePmmMetrics`, `pickle_dump`, `pickle_load` |
| `file_io/retro_comp.py` | `Retro`, `Compare` | |
| `utils/tex_utils.py` (texts) | `TeXText` | |
| `bin/kill_job_submitter`, `bin/report_batch_jobs`, `bin/run_integ_test` | `Tools` | |
| `notebook_helpers/load_helpers.py` | `Scenarios` | the runs of a scenario, replacement of matrices; loading an analysis is `AnalysisLife` |
| `bin/create_h5density` | `DensityMaker` | all of `main` after `argparse`, without what is printed |
| `scripts/build_tables.py`, `table_helpers.py` (writers) | `BuildTables` | the rows and gains of a table, the number of columns in LaTeX, the widths in the sheet; not the text of the cells |
| `notebook_helpers/contours.py`, `misc.py`, `barplots.py` | `Contours` | choice of the analysis, options, files and colours of contour plots, numbers of bar plots; not the drawing |
| `bin/collect_results`, `collectAndDumpResults` | `CollectProg` | the order of the changes to the output directory, failures and stops; not a file that is half written |
| `base_structs/generic_dict.py` L48-65, `config/cmd_line.py` L14-127 | `Args` | all; attributes with two underscores left out |
| `fisher/final_results_core.py` L27-103, `fisher/fisher_analysis.py` L228-231, L309-325, `utils/table_utils.py` L9-20 | `FinalFiles` | the files; what is computed is given (`FisherStore`) |
| `data/fishers/a_posteriori_fisher_combs.txt`, `fisher/fisher_utils.py` L98-106 | `Combos` | lines; `splitlines` is left out |
| `main/seyfert_core.py` L134-155, L179-181, `main/task_runners.py` L312-318, L574-603: the external matrix | `PkFile` | the matrices of the run are given; final results as one step |
| `fisher/fisher_plot.py`, `notebook_helpers/contours.py` | `Plot` | parameters, settings, ranges, colours and panels; not the drawing |
| `utils/array_utils.py` | `Multipoles` | all |
| `cosmology/parameter.py` | `Parameter` | collections, flatness, steps, files |
| `derivatives/differentiator.py`, `derivatives/cl_derivative.py`, `main/cl_derivative_core.py`, `bin/compute_cls`, `bin/compute_derivatives` | `Stem`, `Names`, `ClDerivative` | SteM (scalar and vectorised), analytic derivatives, pairing of spectra with parameter values, both ways to the derivatives; not the standalone mode |
| `utils/filesystem_utils.py`, `utils/general_utils.py`, `utils/formatters.py` | `Names` | names of directories, run identifiers, durations |
| `main/task_runners.py`, `bin/job_submitter` | `Names`, `Resume`, `Runner` | sets of jobs, order of a forecast, execution of jobs, options, run directory, removal of variations, what is skipped when results exist |
| `main/bsub_utils.py` | `Batch`, `Submit` | reading `bjobs`, waiting, the command of submission, names of logs, table of used resources; the scheduler is a parameter |
| `cosmology/bias.py`, `Cosmology.sigmaR` | `Bias`, `BiasFile`, `Redshift` | all models and files; the spline is a parameter |
| `main/report_maker.py` | `Report` | states, counts, times, hosts; not the layout of the text |
| `main/orchestration.py` | `Orchestration` | combinations, run ids, command lines, collection of run directories |
| `main/seyfert_core.py` | `Resume`, `Workspace`, `Runner` | `do_forecast` as changes of the run directory, set-up, directories and memory of forecasts |
| `utils/workspace.py` | `Workspace`, `Runner` | recorded input files, links to other runs, directories of variations; not the result directories |
| `main/cl_core.py` | `Runner`, `ClDerivative`, `ClDirect`, `FisherInputs`, `DensityMaker` | loop over displaced parameters with and without files, choice of the cosmology, normalised spectra, densities |
| `numeric/` | `Numeric` | Newton-Cotes, smooth step, stencil, percentage differences |
| `config/`, `file_io/json_io.py` | `Config`, `ForecastLoad` | probe combinations, flags, equality, editor, names, reading of probes, parameters and multipoles; not the command line |
| `utils/tex_utils.py` | `TeX` | names of probes, parameters, combinations and cosmologies; the rewriting of texts and tables is in `TeXText` |
| `utils/ist_comparison.py` | `Reparam`, `IstErrors` | all |
| `fisher/results_collector.py` | `Collector` | all but reading of pickles |
| `utils/run_loader.py`, `utils/comparison_utils.py` | `Compare` | versions, choice of readers, collection of spectra, report, table of differences; old files are in `Retro` |
| `base_structs/generic_dict.py` | `PyDict` | all; nested mapping and subsets |
| `cosmology/redshift_density.py`, `cosmology/bias.py` | `Redshift`, `Density` | bin overlap, noise between probes, piecewise and constant bias, photometric response, normalisation, surface density, order of calls |
| `cosmology/kernel_functions.py`, `cosmology/c_ells.py`, `cosmology/weight_functions.py` | `Kernel`, `Weights`, `Spectra` | assembly, symmetry, which evaluations happen, Simpson's rule, lensing efficiency and weights, spectra of all bins as one matrix |
| `cosmology/cosmology.py`, `cosmology/power_spectrum.py` | `Background` | checks, expansion, distances, growth, what is kept; not the splines of stored arrays |
| `cosmology/boltzmann_solver.py`, calls in `power_spectrum.py` | `Boltzmann`, `PowerEval`, `PowerJobs` | redshift groups, parameters handed over, ini files, amplitude tuning; not CAMB and CLASS |
| `utils/converters.py` | `Units` | all |
| `utils/dir_explorer.py` | `Explorer` | all |
| `file_io/hdf5_io.py` | `H5`, `Stored` | opening, loading, saving, groups and data sets |
| HDF5 parts of `redshift_density.py`, `weight_functions.py`, `kernel_functions.py`, `c_ells.py`, `delta_cl.py`, `cl_derivative.py`, `cosmology.py`, `power_spectrum.py` | `Stored`, `CosmoFile` | writers and readers; roots are absolute paths |
| `file_io/ext_input.py` | `External` | names of variations, power spectra, tables of angular spectra, Fisher matrices; not the loops over directories of angular spectra |

## What is not modelled

* Drawing itself (matplotlib calls in `plot_utils/` and `notebook_helpers/`), notebooks, layout and events of the graphical interface; what these take their data, labels and files from is modelled where the table above says so.
* Of the physics: the validity of the bias formulas, the analytic form of the redshift distributions, spline interpolation of the power spectrum (`RectBivariateSpline`, `interp1d`) and of the functions stored on the grid, Romberg integration. Integrals by `quad` are exact integrals.
* Logging, command line parsing of the entry scripts other than those of `Cli` and `RunSeyfert`, parallel worker pools (jobs of a task are independent; `Resume` orders them as the code submits them).
* Rounding of floats, memory, time.

## Results per property

For each property: what is modelled, how it is proved, what is false or missing, and the theorems (`Seyfert.` is omitted from their names).

### C01 Enumeration map agrees with the vectorisation order (proved)

* Modelled: index functions and both enumeration maps on lists of index pairs.
* Proof: closed formula of the position in column-major and in triangular order, by induction on the column; then uniqueness of positions.
* Theorems: `Linalg.enumeration_map_cross`, `Linalg.enumeration_map_auto`, `Linalg.enumeration_map_error`, `Linalg.triangle_indices`

### C02 Matrix vectorisation round trips (proved)

* Modelled: `vec`, `vecp`, `unvec`, `unvecp` with the error branches for wrong lengths.
* Proof: positions of C01; assignment to a list of distinct positions.
* Limits: Entries in any field where 2 is not 0; square roots in the size computations are exact.
* Theorems: `Linalg.unvecp_vecp`, `Linalg.vecp_unvecp`, `Linalg.vecp_error`, `Linalg.unvecp_error`, `Linalg.unvec_vec`, `Linalg.vec_unvec`, `Linalg.unvec_error`

### C03 Duplication, elimination and commutation matrices (proved)

* Modelled: the three matrices as sums of unit vectors, as in the code.
* Proof: action on an arbitrary vector, computed at each position.
* Limits: Identities of matrices are stated as actions on every vector of the right length. For transition_matrix see C154.
* Theorems: `Linalg.duplication_spec`, `Linalg.elimination_spec`, `Linalg.elimination_duplication`, `Linalg.commutation_spec`, `Linalg.commutation_involutive`

### C04 Correlation key conversions round trip and preserve meaning (partial)

* Modelled: key classes on character lists, parsers of the three notations.
* Proof: finite table of probes, checked completely by the kernel and lifted to all pairs; rejection clause refuted by a witness.
* Limits: Everything is proved for well written keys. The rejection clause is false: only the start of the text is matched, so malformed text such as 'phphjunk' is accepted (negation proved).
* Theorems: `Keys.key_recognised`, `Keys.key_conversion`, `Keys.key_reverse`, `Keys.key_auto_and_invalid_kind`, `Keys.key_accepted_partial`, `Keys.key_rejection_false`, `Keys.probe_name_conversion`, `Keys.probe_name_accepted`, `Keys.probe_name_equality`, `Keys.key_from_parts`

### C05 Key equality is an equivalence relation consistent with hashing (partial)

* Modelled: `__eq__`, `__hash__`, `equivalentTo`.
* Proof: reduction to the pair a key denotes; witness for malformed keys.
* Limits: Proved for well written keys. False for accepted malformed keys: equality is not symmetric and disagrees with the hash (negation proved).
* Theorems: `Keys.key_equality_partial`, `Keys.key_equivalence_partial`, `Keys.key_equality_false`

### C06 Spectrum lookup is independent of stored orientation (proved)

* Modelled: the lookup of the four container classes, with string and key indices.
* Proof: case analysis on which orientation is stored, for any stored dictionary.
* Theorems: `Keys.smart_lookup`, `Keys.smart_lookup_reversed`, `Keys.smart_lookup_ells`, `Keys.tuple_lookup`, `Keys.tuple_lookup_reversed`, `Keys.flex_lookup`, `Keys.flex_lookup_notation`

### C07 Data vector names and strings round trip (partial)

* Modelled: names, brief and full strings of data vectors and their parsers.
* Proof: induction over entries; separators cannot occur inside entries.
* Limits: The round trips through name and brief string fail for the empty data vector only (negation proved); injectivity of names and the full string round trip hold for all.
* Theorems: `DataVector.dv_built`, `DataVector.dv_name_round_trip_partial`, `DataVector.dv_name_round_trip_false`, `DataVector.dv_brief_round_trip_partial`, `DataVector.dv_string_round_trip`, `DataVector.dv_name_injective`

### C08 Data vector equality (partial)

* Modelled: `__eq__` with its `zip`.
* Proof: induction; witness for lists of different length.
* Limits: False: comparison stops at the shorter list (negation proved). Exact behaviour proved; the claim holds for equal lengths.
* Theorems: `DataVector.dv_equality_false`, `DataVector.dv_equality_prefix_partial`, `DataVector.dv_equality_partial`

### C09 Fisher matrix addition and subtraction (proved)

* Modelled: `__add__`, `__sub__`, `zeroPadMatrices` on labelled frames, also on the heap.
* Proof: entry formula for every pair of labels and every set order; frame theorem on the heap.
* Limits: Operands unchanged: add_frame, sub_frame on the heap. The nuisance flag of operands is lost in sums (add_forgets_flag).
* Theorems: `Fisher.add_spec`, `Fisher.sub_spec`, `Fisher.add_order_independent`, `Fisher.sub_order_independent`, `Fisher.add_comm_content`, `Fisher.add_assoc_content`, `Fisher.sub_self_zero`, `Fisher.add_sub_cancel_entries`, `Fisher.add_frame`, `Fisher.sub_frame`, `Fisher.combineH_extends`

### C10 Marginalisation removes exactly the requested parameters (proved)

* Modelled: `marginalizeParameters` in place and as a copy, with both inversions.
* Proof: uniqueness of inverses of restricted blocks; Schur complement for positive definiteness.
* Limits: All parts proved for well-formed matrices. What happens when the second inversion raises is C58.
* Theorems: `Fisher.margInPlace_spec`, `Fisher.margCopy_spec`, `Fisher.marg_unknown`, `Fisher.marg_singular`, `Fisher.marg_marg`, `Fisher.marg_posDef`, `Fisher.marg_nuisance_copy`

### C11 Fixing parameters (proved)

* Modelled: `fixParameters`, `selectRelevantFisherSubMatrix`.
* Proof: entry formulas; commutation by comparing entries.
* Theorems: `Fisher.fix_spec`, `Fisher.fix_unknown`, `Fisher.fix_fix`, `Fisher.fix_add`, `Fisher.fix_marg_comm`, `Fisher.fix_marg_comm_posDef`

### C12 Reported errors describe the current matrix (partial)

* Modelled: all methods that touch the matrix or the cached inverse, as operations of a state machine.
* Proof: invariant: cached inverse is absent, fresh or stale; witness for the stale case.
* Limits: False of the code after fixing parameters or adding a prior with a cached inverse (stale_errors); proved for every history not ending stale.
* Theorems: `Fisher.errors_current_partial`, `Fisher.stale_errors`

### C13 A posteriori combinations evaluate the written formula (proved)

* Modelled: parser of combinations and evaluation on the heap.
* Proof: induction over operands; frame property of each step.
* Limits: Operand names without blanks. Value is the signed sum of the named matrices; no existing object changes; list evaluation order irrelevant.
* Theorems: `Fisher.combination_value`, `Fisher.combination_missing`, `Fisher.combinations_all`, `Fisher.combinations_sequential`, `Fisher.splitOps_text`, `Fisher.text_injective`

### C14 An analysis never changes the matrices it was given (partial)

* Modelled: `FisherAnalysis` on the heap.
* Proof: invariant over operation sequences; witness of sharing.
* Limits: False in general: useBaseFishers and one-addend sums share objects, so marginalising the working matrices marginalises the base ones (base_changed). True for sums of two or more addends and for all histories without marginalisation.
* Theorems: `Fisher.base_unchanged_partial`, `Fisher.contents_unchanged_partial`, `Fisher.fromAddends_extends`, `Fisher.base_changed`

### C15 Covariance block formula and symmetry (proved)

* Modelled: `computeCovBlock`, `buildMatrix` on tables of spectra.
* Proof: position arithmetic of C01 inside blocks of any sizes.
* Limits: Closed formula of every entry of the assembled array (so symmetry follows), for every data vector, any number of bins, any common multipole; and failure when a spectrum is missing.
* Theorems: `Cov.covariance_spec`, `Cov.covariance_needs_all`

### C16 Fisher matrix of a data vector is symmetric and additive over multipoles (proved)

* Modelled: derivative vectors, the product at one multipole, the sum, the frame of free parameters.
* Proof: sum rewriting; square completion for the quadratic form.
* Limits: Labels sorted; closed formula; symmetric; nonnegative quadratic form.
* Theorems: `Cov.fisher_spec`, `Cov.fisher_symmetric`, `Cov.fisher_nonneg`, `Cov.fisher_total_nonneg`

### C17 Every multipole of an auto-correlation is counted exactly once (proved)

* Modelled: masking to common multipoles and the contribution of involved probes.
* Proof: disjoint union of multipole lists.
* Theorems: `Cov.fisher_spec`, `Cov.fisher_auto`, `Cov.fisher_total`, `Cov.fisher_needs_tables`, `Cov.fisher_needs_every_table`

### C18 Multipole set operations (proved)

* Modelled: `np.intersect1d`, `np.union1d` as sorted duplicates-free lists, folded as in the code.
* Proof: induction over the list of grids; sorted lists with the same elements are equal.
* Theorems: `Ells.inter_spec`, `Ells.inter_empty`, `Ells.inter_perm`, `Ells.union_spec`, `Ells.union_perm`

### C19 Linear multipole binning partitions the requested range (proved)

* Modelled: `compute_multipoles_arrays` with both spacings and all errors.
* Proof: induction on the number of bins; logarithmic edges by a parameter with its defining property.
* Limits: lin_overshoot shows why the linear statement needs an integer range.
* Theorems: `Ells.lin_spec`, `Ells.lin_overshoot`, `Ells.log_spec`, `Ells.multipoles_reversed`, `Ells.multipoles_bad_spacing`, `Ells.multipoles_missing_n`, `Ells.widths_recomputed`

### C20 Flat cosmologies stay flat (proved)

* Modelled: `PhysicalParametersCollection` with current and fiducial values.
* Proof: invariant over arbitrary operation sequences.
* Limits: Exact arithmetic; the code compares and updates floats.
* Theorems: `Param.calls_frame`, `Param.reset_fiducials`, `Param.reset_forgets`, `Param.update_central`, `Param.update_effect`, `Param.update_after_reset`, `Param.flat_stays_flat`

### C21 A rejected parameter update changes nothing (partial)

* Modelled: the update with each refusal.
* Proof: case analysis; witness for the density update.
* Limits: False for a density of a flat model when flatness cannot be preserved: refused_update_changes gives the witness.
* Theorems: `Param.refused_unchanged_partial`, `Param.refused_unchanged_ok`, `Param.update_refused_iff`, `Param.refused_update_changes`

### C22 Finite-difference steps (proved)

* Modelled: displacements, numbering, table of values.
* Proof: sorted lists.
* Limits: For positive displacements, as in every shipped input.
* Theorems: `Param.stem_steps`, `Param.step_order`, `Param.valueFor_spec`, `Param.stem_values`

### C23 Parameter file round trip (partial)

* Modelled: dictionaries written and read, field by field.
* Proof: round trip per field; witnesses for lost fields.
* Limits: False for descriptions, for the probe of a cosmological parameter and for a zero displacement; everything else survives.
* Theorems: `Param.file_roundtrip_partial`, `Param.stem_roundtrip`, `Param.file_only_cosmological`, `Param.readJSON_merges`, `Param.description_lost`, `Param.zero_displacement_lost`, `Param.construct_iff`

### C24 SteM derivative is exact on straight lines and always terminates (partial)

* Modelled: both versions of SteM with the least squares fit in closed form.
* Proof: termination measure; the fit is the unique minimiser; exact regression on lines.
* Limits: All parts proved except that the scalar version may discard points of an exact line when one of the values is exactly zero (the slope is still exact). The two versions keep different minimum numbers of points.
* Theorems: `Stem.fit_least_squares`, `Stem.loop_spec`, `Stem.stem_total`, `Stem.stem_line`, `Stem.loop_no_discard_partial`, `Stem.vectorized_elementwise`, `Stem.colLoop_spec`, `Stem.vectorized_lines`, `Stem.versions_differ`

### C25 SteM derivative does not depend on the sign of the data (partial)

* Modelled: the same definitions.
* Proof: the scalar loop commutes with negation; witnesses for the vectorised one.
* Limits: Proved for the scalar version; false for the vectorised version that the pipeline uses.
* Theorems: `Stem.loop_scale`, `Stem.stem_scale`, `Stem.colLoop_scale_partial`, `Stem.negative_never_trimmed`, `Stem.vectorized_sign_dependent`

### C26 Analytic derivative with respect to a bias parameter (partial)

* Modelled: the product of biases and the index read from the parameter name.
* Proof: derivative of a bilinear expression, case by case; witness from bin ten on.
* Limits: False from bin 10 on: wrong_bin.
* Theorems: `Stem.computeDerivative_eq`, `Stem.constant_derivative_partial`, `Stem.piecewise_derivative_partial`, `Stem.other_probe_derivative`, `Stem.wrong_bin`

### C27 Job directory names identify the variation (partial)

* Modelled: job directory names and the regular expression that reads them.
* Proof: parser lemma for each part; witness for steps of two digits.
* Limits: False for steps from ten on, which are read as their first digit; proved below ten.
* Theorems: `Names.parse_jobDir`, `Names.jobDir_roundtrip_partial`, `Names.jobDir_injective`, `Names.large_step_misread`, `Names.fisherDir_roundtrip`

### C28 Job sets cover each variation exactly once (proved)

* Modelled: sets of jobs of the three tasks.
* Proof: list combinatorics: membership and no repetition.
* Theorems: `Names.powerJobs_spec`, `Names.angularJobs_spec`, `Names.derivativeJobs_spec`, `Names.jobs_refused`, `Names.loaded_steps_ok`

### C29 Result files are never silently overwritten (proved)

* Modelled: `writeToFile`, `loadFromFile`, `getFilename`, `write_dataframe_table` against a file system.
* Proof: case analysis; induction over a list of matrices saved one after the other.
* Limits: HDF5 content as a record of datasets; file names of the shipped matrices proved distinct; different names can share a file name (file_name_collision).
* Theorems: `Fisher.write_no_target`, `Fisher.write_existing`, `Fisher.write_ok`, `Fisher.history_keeps_files`, `Fisher.write_load`, `Fisher.load_forgets_flag`, `Fisher.save_all`, `Fisher.shipped_files_distinct`, `Fisher.file_name_collision`, `Fisher.table_existing`, `Fisher.table_written`, `Fisher.table_bad_suffix`, `Fisher.file_name_clean`, `Fisher.file_name_injective`

### C30 Waiting for batch jobs (partial)

* Modelled: `bjobs` output parser and the waiting loop against an arbitrary sequence of answers.
* Proof: induction over answers; witnesses for early returns.
* Limits: The second half is proved. The first half is false: an empty answer, a user name with digits or capitals, and the maximum time all let the wait return with unfinished jobs; proved when every answer lists every job.
* Theorems: `Batch.wait_spec`, `Batch.failure_raises`, `Batch.done_partial`, `Batch.wait_ends`, `Batch.returns_early`, `Batch.returns_at_timeout`, `Batch.other_users_ignored`, `Batch.host_number_is_a_job`, `Batch.parse_table`, `Batch.parse_table_other`, `Batch.countDown_iff`, `Batch.getJobID_spec`

### C31 A forecast can be resumed after a crash (partial)

* Modelled: `do_forecast` as a program of changes of the run directory with crashes before each change or inside a write.
* Proof: Hoare-style rules for programs; invariant over every history of interrupted starts.
* Limits: Proved for every history of interruptions: a start that completes leaves the same files as an uninterrupted run, and complete files are never changed. Not every interruption is recovered from; the exact condition is proved, with the cases where no later start ever completes.
* Theorems: `Resume.resume_same`, `Resume.resume_completes_iff_partial`, `Resume.stuck_forever`, `Resume.finished_kept`, `Resume.fresh_completes`, `Resume.first_write_fatal`, `Resume.derivatives_interrupted_fatal`, `Resume.finished_again_fails`, `Resume.stored_reused`

### C32 Multi-run orchestration (partial)

* Modelled: nested loops over configurations, sorting, collection of directories by name.
* Proof: position of each combination in the nested order; parser of run identifiers.
* Limits: One run per combination at its place in the nested order, and the order of the forecast configurations, are proved. False of the code: external power spectra replace those of every combination (external_replaces); earlier directories beginning with a run id are collected too (older_collected), and the directory of a run with a numeric id with leading zeros is not (zeros_missed). Proved exactly otherwise.
* Theorems: `Orch.sort_spec`, `Orch.binsOf_isSome`, `Orch.binsOf_eq`, `Orch.refused_iff`, `Orch.one_per_combination`, `Orch.run_arguments_partial`, `Orch.external_replaces`, `Orch.collect_iff`, `Orch.collected_exact_partial`, `Orch.older_collected`, `Orch.zeros_missed`, `Orch.run_settings`

### C33 Run identifiers round trip (proved)

* Modelled: `split_run_id` as the greedy regular expression.
* Proof: uniqueness of the decomposition from the right.
* Limits: Identifiers without newlines, years from 1000 on, versions of three single digits.
* Theorems: `Names.stamp_roundtrip`, `Names.runId_roundtrip`, `Names.splitRunId_sound`, `Names.calendar`, `Names.leap_count`

### C34 Composite Newton-Cotes integration (partial)

* Modelled: the composite rule with its remainder.
* Proof: interval partition by induction; polynomial identities per order; witness for the remainder.
* Limits: Exactness up to the order is false when the number of intervals is not a multiple of the order: the remaining intervals use a lower order. Everything else is proved.
* Theorems: `Numeric.integral_exact_partial`, `Numeric.integral_real_partial`, `Numeric.integral_constant`, `Numeric.integral_linear`, `Numeric.integral_refused`, `Numeric.integral_nonneg`, `Numeric.remainder_inexact`, `Numeric.nonuniform_inexact`

### C35 Smooth step and filters (proved)

* Modelled: the smooth step for every N, with binomials.
* Proof: polynomial identities and derivative sign.
* Limits: For every N, over the real numbers.
* Theorems: `Numeric.smoothstep_outside`, `Numeric.smoothstep_mem`, `Numeric.smoothstep_increasing`, `Numeric.smoothstep_symm`, `Numeric.topHat_spec`, `Numeric.voidCut_spec`

### C36 Stencil derivative (proved)

* Modelled: the stencil on arbitrary functions.
* Proof: polynomial identity.
* Theorems: `Numeric.stencil_exact`, `Numeric.stencil_fifth`, `Numeric.stencil_linear`

### C37 Percentage differences used as comparison metric (partial)

* Modelled: `pad` for arrays and for tables.
* Proof: algebra; witness for negative sums.
* Limits: False for tables: the difference is negative when the sum of the entries is, so it passes every threshold. Arrays are proved.
* Theorems: `Numeric.padArr_spec`, `Numeric.padArr_detects`, `Numeric.padTab_spec`, `Numeric.padTab_nonneg_partial`, `Numeric.padTab_negative`, `Numeric.padArr_opposite`, `Numeric.padTables_spec`, `Numeric.padTab_value`

### C38 Probe combinations and cross-correlation flags (partial)

* Modelled: `combinations_with_replacement`, flag lookup.
* Proof: induction; witness for contradictory tables.
* Limits: combinations fully proved; the flag depends on the order when the table holds both orders with different values (flag_order_matters)
* Theorems: `Config.combos_mem`, `Config.combos_length`, `Config.combos_sorted`, `Config.combos_once`, `Config.flag_order_partial`, `Config.flag_found`, `Config.flag_missing`, `Config.flag_order_matters`

### C39 Configuration equality (partial)

* Modelled: `__eq__` of the three classes, including the numpy comparison.
* Proof: exact characterisation; witnesses of ignored fields.
* Limits: false of the code: sky fraction, displacements, free flags and methods are ignored; what equality does guarantee is proved
* Theorems: `Config.forecastEq_tells_partial`, `Config.probeEq_tells`, `Config.forecastEq_self`, `Config.sky_ignored`, `Config.par_equal_but_different`, `Config.arrEq_broadcast`

### C40 Edited configuration depends only on the requested options (partial)

* Modelled: the editor as a state machine over option sets.
* Proof: two histories give the same result up to the listed field; witnesses.
* Limits: false of the code: with gcph_minus_gcsp the bias file is left from before; excluding options are refused after the multipoles were changed
* Theorems: `Config.checkOpts_iff`, `Config.newEditor_spec`, `Config.history_irrelevant_partial`, `Config.update_values`, `Config.refused_late`, `Config.history_matters`, `Config.updateData_missing`

### C41 Translating names to TeX (partial)

* Modelled: the table and the replacement functions.
* Proof: whole table checked by the kernel; witnesses.
* Limits: unknown names are not reported and single probes are never translated back in the code; everything else proved
* Theorems: `TeX.known_name`, `TeX.never_reported`, `TeX.unknown_silent`, `TeX.bias_name`, `TeX.bias_collision`, `TeX.names_distinct_partial`, `TeX.par_roundtrip`, `TeX.par_refused`, `TeX.cosmology_roundtrip`, `TeX.probe_single`, `TeX.single_never_back`, `TeX.combination`, `TeX.combination_back_partial`, `TeX.combination_renamed`, `TeX.composed_name`

### C42 Dictionary wrapper behaves as a map (proved)

* Modelled: all methods as operations on association lists.
* Proof: refinement to finite maps over operation sequences.
* Theorems: `PyDict.wrapper_is_map`, `PyDict.wrapper_keys_distinct`, `PyDict.wrapper_errors`, `PyDict.wrapper_error_unchanged`, `PyDict.wrapper_eq`

### C43 Elapsed time formatting (partial)

* Modelled: `time_format` on rational durations.
* Proof: division with remainder; witness for rounding up to 1000.
* Limits: False: the rounded milliseconds may be 1000.
* Theorems: `Names.timeFormat_partial`, `Names.ms_reach_1000`

### C44 Redshift bin overlap (proved)

* Modelled: `get_bins_overlap`, the noise between photometric and spectroscopic bins.
* Proof: ordered-field case analysis; telescoping sum over a partition.
* Limits: Any ordered field; the integral of the density is an additive function of intervals.
* Theorems: `Redshift.overlap_refused`, `Redshift.overlap_some`, `Redshift.overlap_none`, `Redshift.overlap_symm`, `Redshift.overlaps_partition`, `Redshift.noise_sum`, `Redshift.noise_matrix_spec`, `Redshift.noise_matrix_refused`

### C45 Piecewise bias (proved)

* Modelled: `PiecewiseBias` with the sorting by index.
* Proof: last true condition of sorted edges.
* Limits: Any linear order of redshifts; numpy.piecewise modelled as last true condition, zero when none.
* Theorems: `Redshift.piecewise_values`, `Redshift.piecewise_number`, `Redshift.sorted_by_index`, `Redshift.order_irrelevant`, `Redshift.biasIndex_name`, `Redshift.conditions_value`

### C46 Kernels and spectra are symmetric where they must be (proved)

* Modelled: kernels and spectra assembled entry by entry.
* Proof: symmetry entry by entry; commutativity of the product.
* Limits: Any field, any integration functional.
* Theorems: `Kernel.kernel_symmetric`, `Kernel.kernel_transpose`, `Kernel.autoCl_value`, `Kernel.autoCl_symmetric`, `Kernel.skipping_leaves_diagonal`, `Kernel.crossCl_value`, `Kernel.crossCl_transpose`, `Kernel.auto_eq_cross`, `Kernel.cl_integrals`

### C47 Run directory selection (partial)

* Modelled: the explorer with patterns, filters and recursion over a directory tree.
* Proof: exact membership condition, by induction over the tree; witnesses.
* Limits: False of the code with additional patterns (a name that matches them is selected although it follows no run-name pattern) and for symbolic links; proved otherwise, and the exact condition proved in general.
* Theorems: `Explorer.filter_iff`, `Explorer.selected_recursive_partial`, `Explorer.selected_flat_partial`, `Explorer.pattern_replaces`, `Explorer.unrecognised_selected`, `Explorer.link_selected`, `Explorer.groups_form2`, `Explorer.groups_form3`

### C48 Opening HDF5 files (proved)

* Modelled: `openFile`, `load`, `save` by mode and existence.
* Proof: case analysis over all modes; induction over histories of uses.
* Limits: For every mode, root and file content, and over every history of uses of a file; stronger than claimed, since write mode is refused on an existing file.
* Theorems: `H5.open_keeps`, `H5.write_refused`, `H5.load_keeps`, `H5.load_missing`, `H5.save_keeps`, `H5.save_written`, `H5.save_taken`, `H5.history_keeps`, `H5.open_existing`

### C49 Splitting redshifts for CAMB (proved)

* Modelled: `np.array_split` and the number of groups.
* Proof: lengths and concatenation of the groups.
* Limits: The float division n/150 is exact in the model.
* Theorems: `Boltzmann.groups_spec`, `Boltzmann.groups_minimal`, `Boltzmann.run_rows`

### C50 Boltzmann code parameters conserve the densities (partial)

* Modelled: the two dictionaries of parameters.
* Proof: field arithmetic; witness for rounding.
* Limits: CAMB proved. For CLASS the curvature is rounded to six digits, so the sum is one only up to half a millionth.
* Theorems: `Boltzmann.camb_closure`, `Boltzmann.class_matter`, `Boltzmann.class_closure_partial`, `Boltzmann.class_not_closed`

### C51 CAMB ini file round trip (partial)

* Modelled: reader and writer of ini text.
* Proof: induction over lines; witnesses.
* Limits: False for values containing an equals sign and for names that are empty or start with #; proved otherwise, and proved for every text that has been read.
* Theorems: `Boltzmann.round_trip_partial`, `Boltzmann.reread`, `Boltzmann.updated_file`, `Boltzmann.value_with_equals`, `Boltzmann.unreadable_lost`

### C52 Noise and normalisation of spectra (proved)

* Modelled: noise, normalisation, joint blocks.
* Proof: entry formulas; positions inside joint blocks.
* Limits: Surface densities are parameters; the square root is a parameter with its defining property.
* Theorems: `Cov.noise_spec`, `Cov.evaluate_spec`, `Cov.evaluate_total`, `Cov.evaluate_again`, `Cov.noise_file_roundtrip`, `Cov.covariance_gaussian`, `Cov.xc_spec`, `Cov.xc_needs_all`, `Cov.xcName_roundtrip`, `Cov.xcSets_spec`

### C53 Relative errors and figure of merit (proved)

* Modelled: relative errors, figure of merit.
* Proof: determinants under permutation of labels.
* Limits: Exact arithmetic in an ordered field, square root as a parameter.
* Theorems: `Fisher.fom_det`, `Fisher.fom_invariant`, `Fisher.relErr_spec`, `Fisher.relErr_nonneg`, `Fisher.relErr_some_iff`, `Fisher.relFom_spec`

### C54 Nested dictionary mapping and selection (proved)

* Modelled: nested dictionaries as trees.
* Proof: mutual structural induction.
* Theorems: `PyDict.mapNested_spec`, `PyDict.mapNested_comp`, `PyDict.subset_spec`

### C55 Unit conversions (proved)

* Modelled: the conversion functions over the reals.
* Proof: field arithmetic.
* Limits: Over the real numbers.
* Theorems: `Units.inverse_pairs`, `Units.reference_values`, `Units.counts_invariant`, `Units.whole_sphere`

### C56 Translating an alias pair to the stored key (partial)

* Modelled: `tuple_key_to_str_key`.
* Proof: case analysis; witness.
* Limits: False when only the reversed pair is stored (negation proved).
* Theorems: `Keys.stored_key_false`, `Keys.stored_key_partial`

### C57 Correlation matrix of the parameters (partial)

* Modelled: `evaluateCorrelationMatrix` with the order in which sigmas are listed.
* Proof: entry formula for every order; witness after marginalisation.
* Limits: False after marginalisation when the set is iterated out of sorted order.
* Theorems: `Fisher.correlation_partial`, `Fisher.correlation_after_marg`

### C58 A Fisher matrix operation that raises changes nothing (partial)

* Modelled: the same methods with the state left after an exception.
* Proof: case analysis on where the exception is raised; witness.
* Limits: False for in-place marginalisation with a singular restricted inverse.
* Theorems: `Fisher.failed_op_unchanged_partial`, `Fisher.marg_failure_corrupts`, `Fisher.marg_unknown`, `Fisher.marg_singular`, `Fisher.fix_unknown`

### C59 Final results are computed from the loaded matrices (proved)

* Modelled: `create_results_for_cosmology` on the heap.
* Proof: invariants over the loop; characterisation of each result; existence for positive definite matrices.
* Limits: Writing of the result files is not part of this model.
* Theorems: `Fisher.loaded_unchanged`, `Fisher.final_results`, `Fisher.final_results_succeed`, `Fisher.sum_posDef`, `Fisher.deepcopy_spec`, `Fisher.final_results_succeed_of`

### C60 Confidence ellipses and ranges (proved)

* Modelled: ellipse data from a two by two covariance.
* Proof: real algebra with trigonometric identities.
* Limits: Over the reals; the confidence factor sqrt(2)*erfinv(CL) is a positive parameter.
* Theorems: `Fisher.ellipse_contour`, `Fisher.ellipse_axes`, `Fisher.range_projection`

### C61 The covariance of a data vector without repetitions is invertible (proved)

* Modelled: the covariance of C15.
* Proof: quadratic form of the covariance as that of a Kronecker product of positive definite matrices on symmetrised vectors.
* Limits: Over the real numbers.
* Theorems: `Cov.covariance_posDef`, `Cov.covariance_det_ne`, `Cov.covariance_repeated`, `Cov.ready_of_posDef`

### C62 When a Fisher matrix is computed (proved)

* Modelled: the checks before and inside the evaluation.
* Proof: case analysis, combined with C61.
* Theorems: `Cov.fisher_spec`, `Cov.fisher_refused`

### C63 A failed save of parameters keeps the existing file (partial)

* Modelled: `writeJSON` as truncation followed by a write.
* Proof: exact condition of the failure.
* Limits: False: a write that raises has already truncated the file; failed_write_destroys says exactly when.
* Theorems: `Param.write_readable_partial`, `Param.failed_write_destroys`

### C64 Free parameters of a probe (proved)

* Modelled: selection of parameters of a probe.
* Proof: membership characterisation.
* Theorems: `Param.freeForProbe_spec`

### C65 Spectra are paired with the parameter values they were computed for (partial)

* Modelled: collection of spectra by step read from directory names.
* Proof: sorted lists; witness from ten displacements on.
* Limits: False from ten displacements on; proved up to nine.
* Theorems: `Names.collect_in_order_partial`, `Names.values_in_order`, `Names.misaligned`

### C66 Names of generated configurations (proved)

* Modelled: `createFileName`, `getConfigID`.
* Proof: names determine the options, all option sets of the script.
* Limits: options in the order of the generating script
* Theorems: `Config.fileName_inj`, `Config.configID_inj`

### C67 Locating an input file of a probe (partial)

* Modelled: `getProbeInitFile`.
* Proof: induction over directories; witness.
* Limits: false of the code: a missing file is never reported
* Theorems: `Config.initFile_found_partial`, `Config.initFile_missing`

### C68 Constant bias values go to the bins they are named after (partial)

* Modelled: `ConstantBias` and the order of its dictionary.
* Proof: case analysis; witness.
* Limits: False of the code: values are taken in storage order. Proved when this is the order of the bins.
* Theorems: `Redshift.constant_values_partial`, `Redshift.constant_order_matters`

### C69 Kernels hold the values for their redshift grid (partial)

* Modelled: evaluation flags of weights and kernels.
* Proof: state machine; witnesses of values kept.
* Limits: False of the code: weights are evaluated once only. Proved for weights not evaluated before.
* Theorems: `Kernel.fresh_kernel_partial`, `Kernel.evaluated_kept`, `Kernel.stale_weights`

### C70 Integration methods accepted for the angular spectra (proved)

* Modelled: `computeClIntegral` with the method name parser.
* Proof: case analysis over method names; powers of two.
* Limits: log2 modelled exactly.
* Theorems: `Kernel.rule_accepted`, `Kernel.rule_order`

### C71 The amplitude is tuned to the requested sigma8 (partial)

* Modelled: the tuning loop.
* Proof: exact number of steps for proportional response; witness.
* Limits: False when the requested value is the starting guess 10, which is then taken as reached.
* Theorems: `Boltzmann.tune_partial`, `Boltzmann.tune_skipped`, `Boltzmann.tune_converged`

### C72 A save happens entirely or not at all (partial)

* Modelled: `save` with the attributes written first.
* Proof: sequence of writes with the first failure; witness.
* Limits: False of the code: failed_save_mixes leaves the attributes of the refused object beside the data of the earlier one. Proved: groups and data sets are always kept, and saving distinct names to a new file does not fail.
* Theorems: `H5.save_new_partial`, `H5.failed_save_mixes`, `H5.save_keeps`

### C73 Run ids of different combinations differ (partial)

* Modelled: run ids.
* Proof: injectivity of joins without separators; witness.
* Limits: False of the code: parts are joined with underscores they may themselves contain (ids_clash). Proved when the parts after the first contain none.
* Theorems: `Orch.ids_differ_partial`, `Orch.runId_parts`, `Orch.ids_clash`, `Orch.pmm_named`, `Orch.stem_spec`

### C74 Command line of an orchestrated run (partial)

* Modelled: `build_seyfert_cmd` and the splitting of words.
* Proof: induction over options; witness.
* Limits: False of the code for values with spaces (space_splits); proved for values without spaces. Quotes and special characters of the shell are not modelled.
* Theorems: `Orch.command_words_partial`, `Orch.space_splits`

### C75 Comparing Fisher matrices (partial)

* Modelled: `__eq__`, `checkAttributes`.
* Proof: exact characterisation; witnesses.
* Limits: Proved for well-formed matrices with the same parameters. False otherwise: matrices with different parameters raise ValueError instead of comparing as different (second half of fisher_equality_partial), equality ignores the division into cosmological and nuisance parameters (equal_but_different), and the check accepts permuted columns (check_accepts_permuted).
* Theorems: `Fisher.fisher_equality_partial`, `Fisher.fisher_equality_equivalence`, `Fisher.equal_but_different`, `Fisher.check_spec`, `Fisher.check_accepts_permuted`, `Fisher.equal_same_declared`

### C76 More information never gives larger errors (proved)

* Modelled: fixing, adding, both kinds of errors, figure of merit over the reals.
* Proof: variational characterisation of the inverse of a positive definite matrix; two by two determinants.
* Limits: Real positive definite matrices whose inverse has not been evaluated before (for stale inverses see C12). Uses Real.sqrt.
* Theorems: `Fisher.fix_errors_le`, `Fisher.add_errors_le`, `Fisher.unmarg_le_marg`

### C77 Priors (partial)

* Modelled: `addPriorToParameters`.
* Proof: entry formula; C76 for the errors.
* Limits: Proved when the inverse has not been evaluated before the prior is added; an already cached inverse is kept, and the errors then reported are those without the prior (stale_errors, C12).
* Theorems: `Fisher.prior_spec`, `Fisher.prior_zero`, `Fisher.prior_errors_partial`

### C78 Recorded input files of a run (partial)

* Modelled: `createInputFilesDir` and the readers of the record, on a disk of files with contents.
* Proof: induction over the files copied; frame lemma; witnesses.
* Limits: Proved when the files have different names. Two files with one name overwrite each other (inputs_collide), and a set-up that fails in an existing directory leaves a mixture of old and new files (inputs_mixed).
* Theorems: `Work.inputs_ok_iff`, `Work.inputs_frame`, `Work.inputs_exact`, `Work.inputs_kept_partial`, `Work.inputs_collide`, `Work.inputs_mixed`, `Work.inputs_deterministic`

### C79 Links to results of other runs (partial)

* Modelled: `symlinkToExternalDirs`, `createSymlink`, directories made by `prepare_workspace`, on a tree of directories and links.
* Proof: induction over the given directories; witnesses.
* Limits: Repeating after a failure can leave the link to the delta file out (link_delta_lost), and the option for external power spectra has no effect in do_forecast (power_dir_ignored).
* Theorems: `Work.link_never_replaces`, `Work.link_unknown_task`, `Work.link_success`, `Work.link_only`, `Work.link_succeeds`, `Work.link_twice`, `Work.link_missing`, `Work.link_delta_lost`, `Work.power_dir_ignored`, `Work.given_dirs_linked`, `Work.prepare_occupied`

### C80 Order of the computations of a forecast (partial)

* Modelled: `ForecastRunner.run` with every computation as one action that may raise, depending on the history.
* Proof: the run is a prefix of the filtered plan, cut at the first failure; sortedness of the plan; witness.
* Limits: With execution 'no' the densities are computed and written when angular spectra are requested without power spectra (dry_run_computes). The report on batch jobs is never written (report_never).
* Theorems: `Runner.run_exact`, `Runner.run_once`, `Runner.run_dependencies`, `Runner.results_last`, `Runner.dry_run_partial`, `Runner.dry_run_computes`, `Runner.report_never`

### C81 Interactive jobs (partial)

* Modelled: `executeJobsInteractively`, a job as exit code and error output.
* Proof: induction over jobs; witnesses.
* Limits: Success is judged by the error stream, not by the exit code: failing silently counts as success (silent_failure), a warning counts as failure (warning_is_failure). The full claim holds for jobs that write to the error stream exactly when they fail.
* Theorems: `Runner.jobs_exact`, `Runner.jobs_completed_partial`, `Runner.silent_failure`, `Runner.warning_is_failure`

### C82 Removal of varied spectra (partial)

* Modelled: the dictionary built by `collectClVariationDirectories` and the removal.
* Proof: invariant of the loop that builds the dictionary (last name of each key); round trip of names; witness.
* Limits: Proved for steps below ten. From ten on some directories are left (cleanup_leaves). The removal also happens when execution is 'no' and nothing was computed.
* Theorems: `Runner.cleanup_exact`, `Runner.cleanup_refused`, `Runner.cleanup_keeps`, `Runner.cleanup_partial`, `Runner.cleanup_leaves`

### C83 Run directories, duration and memory (partial)

* Modelled: `createRundir`, directories of a list of forecasts, duration, memory rules.
* Proof: case analysis; C33 for names; integer arithmetic.
* Limits: Test mode empties the directory of the previous run (rundir_test_destroys). Whole days are missing in the duration (duration_wraps). Forecasts of one batch job share a directory (forecast_dirs_shared). Jobs of the Fisher task ignore the memory asked for (fisher_memory_fixed).
* Theorems: `Runner.rundir_new`, `Runner.rundir_refused`, `Runner.rundir_test_destroys`, `Runner.duration_partial`, `Runner.duration_wraps`, `Runner.forecast_dirs_partial`, `Runner.forecast_dirs_shared`, `Runner.job_memory`, `Runner.fisher_memory_fixed`

### C84 Options from command line and ini file (partial)

* Modelled: conversion of values, merge with the ini section, `check_options`, task flags.
* Proof: dictionary lemmas; case analysis; witnesses.
* Limits: Values of the ini file are not converted: False counts as true (ini_false_is_true) and a number of cores is always refused (ini_cores_refused). Identifiers made of digits lose leading zeros on the command line (run_id_changed).
* Theorems: `Runner.flag_on_command_line`, `Runner.ini_unknown`, `Runner.ini_wins`, `Runner.ini_false_is_true`, `Runner.ini_cores_refused`, `Runner.options_accepted`, `Runner.run_id_changed`, `Runner.convert_spec`

### C85 Configuration used is the configuration recorded (partial)

* Modelled: set-up of a run composed with the file that task runners read.
* Proof: C78; witness.
* Limits: Proved for new runs with files of different names. In a continued run the jobs use the files of the command line whatever is recorded (resumed_config_differs).
* Theorems: `Runner.job_config_partial`, `Runner.resumed_config_differs`

### C86 Spectra of displaced parameters in one process (partial)

* Modelled: the loop of `compute_cls_variations` on the parameter collection of C20-C22.
* Proof: induction over steps with reset after each; step tables of the SteM.
* Limits: The steps are fixed in the code. With fewer than seven displacements the computation fails (too_few_displacements), with more some are left out (too_many_displacements). After a failure the displaced values stay (failed_step_stays).
* Theorems: `Runner.variations_spec`, `Runner.variations_succeed`, `Runner.seven_steps_partial`, `Runner.too_few_displacements`, `Runner.too_many_displacements`, `Runner.failed_step_stays`

### C87 Expansion, distances and growth obey their equations (partial)

* Modelled: the checks of the constructor over the rationals, the functions of the redshift over the reals with the integral of Mathlib for `quad`.
* Proof: algebra of the radicand; fundamental theorem of calculus; uniqueness of antiderivatives; witnesses for the two gaps of the checks.
* Limits: Flatness is checked to ten decimals only, and parameters are accepted for which the Hubble parameter is not a number (accepted_not_flat, hubble_undefined). The equations are proved where the density is positive.
* Theorems: `Background.roundEven_zero_iff`, `Background.check_iff`, `Background.create_together`, `Background.accepted_not_flat`, `Background.factor_darkEnergy`, `Background.darkEnergy_eq`, `Background.friedmann`, `Background.hubble_today`, `Background.hubble_pos_partial`, `Background.hubble_undefined`, `Background.rTilde_deriv`, `Background.distance_spec`, `Background.distance_unique`, `Background.distance_scale`, `Background.radicand_mono`, `Background.not_phantom`, `Background.omegaM_spec`, `Background.growth_spec`, `Background.growth_matter`

### C88 Evaluated functions belong to the present parameters (partial)

* Modelled: the object with what is kept, one evaluation as a step; growth as ratio of spectra.
* Proof: case analysis over what is present; witness of a change between two evaluations.
* Limits: False of the code: what was evaluated is kept when parameters change (background_stale), and the growth is one at the first redshift of the grid, not today (growth_not_one_today).
* Theorems: `Background.growth_from_spectrum_partial`, `Background.growth_not_one_today`, `Background.rescale_spec`, `Background.rescale_twice`, `Background.rescale_own`, `Background.evaluate_fresh`, `Background.evaluate_fails`, `Background.background_stale`

### C89 Redshift distributions are probability densities (partial)

* Modelled: the photometric response, integrals over bins and the normalisation over the reals; order of calls as a state with missing values.
* Proof: Gaussian integral of Mathlib, linearity and monotonicity of integrals; witnesses.
* Limits: Densities given per bin are used as they are (given_not_normalised), and a bin without galaxies gives values that are not numbers.
* Theorems: `Density.gauss_total`, `Density.response_nonneg`, `Density.response_pos`, `Density.response_total`, `Density.bins_at_most_total`, `Density.normalised_spec`, `Density.binNorm_pos`, `Density.normalised_probability`, `Density.normalised_scale`, `Density.given_not_normalised`, `Density.surface_sum`, `Density.shotNoise_spec`, `Density.evaluate_order`, `Density.total_unknown`, `Density.total_methods`

### C90 Weights of galaxies and lensing (partial)

* Modelled: `scipy.integrate.simps` for even and odd numbers of points on any grid, the lensing efficiency and the weights on top of it, setting up of the bias as in the code.
* Proof: linearity and locality of the rule by sums; each panel exact for quadratics; sign of panels on tame grids; witness on an uneven grid.
* Limits: False on some uneven grids, where Simpson's rule gives a negative integral of a positive function (simps_negative); the density of an earlier grid is kept (density_stale); a single redshift is refused with Simpson's rule.
* Theorems: `Weights.simps_add`, `Weights.simps_local`, `Weights.uniform_tame`, `Weights.simps_nonneg`, `Weights.simps_negative`, `Weights.simps_exact`, `Weights.simps_exact_even`, `Weights.efficiency_behind`, `Weights.efficiency_end`, `Weights.efficiency_nonneg`, `Weights.lensing_linear`, `Weights.lensing_nonneg`, `Weights.lensing_ia_end`, `Weights.ia_amplitude`, `Weights.efficiencyCall_iff`, `Weights.density_linear`, `Weights.lookups_some`, `Weights.lookups_mem`, `Weights.finish_iff`, `Weights.setupBias_iff`, `Weights.setupBias_none`, `Weights.density_fresh_partial`, `Weights.density_stale`, `Weights.lensing_value`, `Weights.ia_value`

### C91 Spectra of all bins form a positive matrix (partial)

* Modelled: spectra of C46 as integrals over a linear rule that is positive; cut for voids; noise; covariance of C61.
* Proof: the quadratic form under the integral is a sum of two squares with coefficients that are not negative; positivity of the rule; then C61. Witness with three bins.
* Limits: False when spectra between different spectroscopic bins are left out while those with other probes are kept (skipping_breaks). Proved otherwise, for Newton-Cotes rules of every order and Simpson's rule on tame grids.
* Theorems: `Spectra.newtonCotes_positive`, `Spectra.simpson_positive`, `Spectra.gram_posSemidef`, `Spectra.spectrum_value`, `Spectra.spectra_posSemidef_partial`, `Spectra.cauchy_schwarz`, `Spectra.covariance_invertible`, `Spectra.skipping_breaks`, `Spectra.spectrum_scale`

### C92 External power spectra are filed under the right cosmology in the units of the program (partial)

* Modelled: regular expressions of the names, tables of power spectra, change of units, the loop over files with the shared parameters and the directories made so far.
* Proof: search from the left by induction on the name; rows cut from a table by induction; the loop by induction with the invariant that parameters are reset; table of steps by computation over all entries.
* Limits: Proved for names and tables of the documented form. False in general: a displacement with one more digit counts as fiducial, redshifts listed upwards are swapped, and surplus parameters raise instead of being removed.
* Theorems: `Ext.parse_variation`, `Ext.parse_fiducial`, `Ext.misread_as_fiducial`, `Ext.readTable_correct`, `Ext.readTable_upwards`, `Ext.readTable_refused`, `Ext.convertSpec_spec`, `Ext.convertAll_spec`, `Ext.convertAll_iff`, `Ext.converted_distinct`, `Ext.checkPars_iff`, `Ext.parNames_meaning`

### C93 Tables of external spectra are read at the pairs of bins of the header (partial)

* Modelled: the regular expression for pairs with its giving back of digits, shape and base of the indices, assignment of columns.
* Proof: induction over the pairs of a header with the text between them; assignment at distinct positions.
* Limits: Proved for headers whose pairs are separated by one character. False for headers with other digits or without separators, and one column is spread over all pairs.
* Theorems: `Ext.pairs_found`, `Ext.pairs_found_decimal`, `Ext.compact_misread`, `Ext.stray_digit_misread`, `Ext.indices_eq`, `Ext.readRow_cross`, `Ext.readRow_auto`, `Ext.readRow_length`, `Ext.readCl_cross`

### C94 External Fisher matrices keep their entries (partial)

* Modelled: new names, sorting by labels, name of the file.
* Proof: sorting is a permutation, and new names are injective on the columns of the format.
* Limits: Entries are kept for all columns; names of files are recognised only if the next letter is not one of the letters of the names.
* Theorems: `Ext.newName_bias`, `Ext.newName_injective`, `Ext.newName_collision`, `Ext.readFisher_spec`, `Ext.readFisher_by_name`, `Ext.fisherName_spec`, `Ext.pessimistic_refused`, `Ext.newName_meaning`, `Ext.fisherNames_meaning`

### C95 Changing from bias and sigma8 to their product keeps the information (partial)

* Modelled: symbols from TeX names, Jacobian at the fiducial values, its inverse, the two changes, choice of files, mean and median differences. Symbolic algebra is modelled by the derivatives of single symbols and products of two.
* Proof: the inverse Jacobian is written out and checked; matrix algebra over any field for any number of parameters; sorted lists for the median.
* Limits: The change of parameters is proved for every successful run. It fails for more than ten photometric bins and for parameters of intrinsic alignment (many_bins_refused, alignment_refused), and a second file of the same code replaces the first in silence (file_dropped).
* Theorems: `Reparam.T1_ok_iff`, `Reparam.T1_information`, `Reparam.coords_add`, `Reparam.T1_covariance`, `Reparam.T1_cosmology`, `Reparam.drop_spec`, `Reparam.final_spec`, `Reparam.final_degenerate`, `Reparam.newLabel_injective`, `Reparam.many_bins_refused`, `Reparam.alignment_refused`, `Reparam.codeKey_iff`, `Reparam.collect_spec`, `Reparam.collect_all`, `Reparam.collect_refused`, `Reparam.file_dropped`, `Reparam.subdir_spec`, `Reparam.deltas_mean_sum`, `Reparam.deltas_mean_units`, `Reparam.delta_back`, `Reparam.median_spec`, `Reparam.deltas_median_half`, `Reparam.table_errors`, `Reparam.changed_errors`, `Reparam.isBias_iff`, `Reparam.newLabel_spec`

### C96 Comparing two runs shows every difference (partial)

* Modelled: choice of version and reader from the name of the directory, collection of spectra, comparison of tables with the report, comparison table of spectra. The contents of files are not modelled.
* Proof: lists of characters for the regular expression and the patterns; induction over listings and keys; ordered fields for differences.
* Limits: False of the code in several places: the fiducial spectra are never loaded (fiducial_not_loaded), versions in other places or with other digits are misread (version_of_name, dev_refused, major_misread, minor_refused, prerelease_older), the comparison of errors always fails for runs of this program (comparison_fails), runs without common tables pass (nothing_compared), and differences below the diagonal of cross spectra are not shown (difference_unseen). Proved: the rest.
* Theorems: `Compare.version_found`, `Compare.version_of_name`, `Compare.dev_refused`, `Compare.major_misread`, `Compare.minor_refused`, `Compare.reader_spec`, `Compare.prerelease_older`, `Compare.contains_iff`, `Compare.central_not_collected`, `Compare.fiducial_not_loaded`, `Compare.spectra_loaded_partial`, `Compare.comparison_fails`, `Compare.report_spec`, `Compare.report_agreement_partial`, `Compare.nothing_compared`, `Compare.compTable_spec`, `Compare.meanPad_zero`, `Compare.no_difference_partial`, `Compare.difference_unseen`, `Compare.odmPad_spec`, `Compare.reader_letter`

### C97 Stored results are found again (partial)

* Modelled: names of the files written by an analysis and the patterns with which they are looked for, splitting of names of correlation files.
* Proof: a pattern matches exactly the names with its beginning and ending; lists of characters.
* Limits: False of the code: the loader looks for names that the program does not write (load_refused), and correlations of matrices with an underscore are looked up under another name (corr_refused). Proved: which names are found, that the collector finds the tables, and that two analyses are refused.
* Theorems: `Compare.glob_iff`, `Compare.load_refused`, `Compare.load_expected`, `Compare.errors_found`, `Compare.two_analyses_refused`, `Compare.corr_name`, `Compare.corr_refused`

### C98 Collected results belong to their run (partial)

* Modelled: choice of files, added columns, concatenation, tables from rows by position with filling and refusal. Tables without rows and an option called `fisher` in the second table are not modelled.
* Proof: induction over the runs; every cell of the result is given.
* Limits: False of the code: options in another order are put into wrong columns (analyses_misplaced), a run with fewer options shifts its analysis (analyses_shifted), an option named like a parameter replaces its errors (option_overwrites). Proved: the table of errors, the table of analyses for equal options, and when it is refused.
* Theorems: `Collector.errors_table`, `Collector.missing_table_refused`, `Collector.no_runs_refused`, `Collector.option_overwrites`, `Collector.tables_agree`, `Collector.analyses_refused`, `Collector.analyses_by_name_partial`, `Collector.analyses_misplaced`, `Collector.analyses_shifted`

### C99 Selecting and replacing among collected analyses (partial)

* Modelled: text of the query with its reading, choice of rows, replacement loop as a state change with failure.
* Proof: filters and lookups; induction over rows and names; a second call on the state after the first.
* Limits: False of the code: rows cannot be selected by texts (query_text), relative errors are not replaced (relative_stale), after a failure every further replacement fails (replace_stuck). Proved: the rest.
* Theorems: `Collector.query_spec_partial`, `Collector.query_text`, `Collector.query_empty`, `Collector.subset_analysis`, `Collector.subset_refused`, `Collector.replace_spec`, `Collector.replace_missing`, `Collector.replace_stuck`, `Collector.replace_idempotent`, `Collector.relative_stale`, `Collector.pyEq_iff`

### C100 A submitted batch job gets the requested resources and its own logs (partial)

* Modelled: options as a dictionary that the setters change, text of the command, names and directories of logs, the call with the scheduler as a parameter.
* Proof: invariant over sequences of settings; lists of characters for names.
* Limits: False for submissions without a time in the name: they share logs (logs_shared). Without an announcement of the scheduler the call fails although the command has been run (submit_no_answer).
* Theorems: `Submit.command_last_options`, `Submit.command_default`, `Submit.logs_differ`, `Submit.logs_apart`, `Submit.logs_shared`, `Submit.submit_spec`, `Submit.log_dirs`, `Submit.submit_no_answer`

### C101 Times, names and resources are read back from logs (partial)

* Modelled: dates and numbers found by the regular expressions, calendar, duration, rows of the table.
* Proof: search skips what does not start like the literal; induction over the calendar for `seconds_next_day`; printed numbers are read back.
* Limits: False for jobs of a day or more (duration_drops_days, duration_day_longer), for other years (no_table) and if a log lacks a number (no_table_number).
* Theorems: `Submit.seconds_next_day`, `Submit.seconds_clock`, `Submit.duration_partial`, `Submit.duration_drops_days`, `Submit.duration_day_longer`, `Submit.name_back_partial`, `Submit.no_table`, `Submit.date_back`, `Submit.row_partial`, `Submit.number_back`, `Submit.no_table_number`, `Submit.outStem_spec`, `Submit.row_columns`

### C102 The report on a run states what happened (partial)

* Modelled: files of a job directory in the order of listing, states of jobs, tasks, runs, the failures of writing the report.
* Proof: each state is equivalent to its condition on files or on the states below, for lists of any length; permutation for the sorting.
* Limits: False with two logs of errors (job_status_order_false), for jobs that the program itself submits (submitted_not_seen), for empty and unfinished runs (empty_run_success, half_done_undefined), and no report is written in two cases (empty_task_fails, missing_err_fails).
* Theorems: `Report.job_status_partial`, `Report.job_status_order_false`, `Report.submitted_not_seen`, `Report.core_and_size`, `Report.task_status`, `Report.task_report`, `Report.task_sums`, `Report.run_status`, `Report.run_report`, `Report.empty_run_success`, `Report.half_done_undefined`, `Report.empty_task_fails`, `Report.missing_err_fails`, `Report.core_file`, `Report.core_message`, `Report.task_outputs`, `Report.run_reported`

### C103 Times, numbers and hosts in the report (partial)

* Modelled: lines of a log, dates, hosts, numbers of jobs.
* Proof: induction over the lines for the last start and end; characterisation of the hosts by parts of the text; sortedness of insertion sort.
* Limits: False for jobs of a day or more and for a log with an unfinished second run (execution_time_rerun_false); numbers are compared as text (jobs_sorted_false).
* Theorems: `Report.readDate_spec`, `Report.execution_time`, `Report.execution_time_partial`, `Report.execution_time_rerun_false`, `Report.hosts_spec`, `Report.task_hosts`, `Report.job_number`, `Report.jobs_sorted`, `Report.jobs_sorted_false`, `Report.host_char`

### C104 Choice of the bias model and the bias of flagship galaxies (proved)

* Modelled: `initBiasModel`, `evaluateBias`, the logistic curve over the real numbers.
* Proof: case analysis over the names; monotonicity and limits of the exponential.
* Limits: Real numbers instead of floats.
* Theorems: `Bias.init_ok`, `Bias.init_error`, `Bias.flagship_range`, `Bias.flagship_increasing`, `Bias.flagship_limits`, `Bias.flagship_table`, `Bias.evaluate_galaxies`, `Bias.evaluate_voids`

### C105 Bias of voids (proved)

* Modelled: both models for voids, with the spline as a parameter and Simpson's rule as in SciPy.
* Proof: the mean is bounded because Simpson's rule is monotone on equally spaced points; algebra for the formula of the bias; tables compared entry by entry.
* Limits: The spline is a parameter that gives the ordinates at the points of the grid; between the points the value is that of the spline. That the size function is positive is proved for small arguments of the multiplicity and a falling variance.
* Theorems: `Bias.growth_iff`, `Bias.growth_value`, `Bias.ratio_spec`, `Bias.voidBias_eq`, `Bias.voidBias_lt_one`, `Bias.multiplicity_pos`, `Bias.multiplicity_large`, `Bias.size_pos`, `Bias.mean_between`, `Bias.mean_lt_one`, `Bias.mean_example`, `Bias.vdn_iff`, `Bias.vdn_value`, `Bias.unaffected`, `Bias.xOf_eq`, `Bias.size_rare`

### C106 Variance of the filtered matter density (proved)

* Modelled: `sigmaR` and `computeSigmaR` over the real numbers.
* Proof: monotonicity of the filter in the product of wave number and radius, and of Simpson's rule on grids of slowly changing steps.
* Limits: Simpson's rule as in SciPy, real numbers.
* Theorems: `Bias.sigma_cases`, `Bias.sigma_decreasing`, `Bias.sigma_scale`, `Bias.sigma_calls`

### C107 Files of the bias (partial)

* Modelled: what a file holds and the order in which its members are listed.
* Proof: sorting is a permutation that keeps sorted lists; witnesses for more than ten bins and for values without a grid.
* Limits: False for values without a grid, which are written and not read, and for the constant model with more than ten bins, whose values are permuted by reading. Proved otherwise.
* Theorems: `BiasFile.roundtrip`, `BiasFile.listing_lookup`, `BiasFile.listing_sorted`, `BiasFile.save_errors`, `BiasFile.save_load_save`, `BiasFile.load_into`, `BiasFile.values_lost`, `BiasFile.piecewise_reload`, `BiasFile.constant_reload_partial`, `BiasFile.constant_reload_wrong`

### C108 Files of redshift densities and weight functions (partial)

* Modelled: densities and weight functions as attributes that may be missing, the calls on the file of their writers, the readers. Arrays are values of any type. The `bias` group is C107.
* Proof: a save under a new path is the relocation of a save into an empty file, so the reader sees the same subtree; the subtree is computed once for all objects.
* Limits: False of the code in three points: tables a density was not made from are lost, values of a weight function without redshifts are lost, loading into an existing weight function with a root that begins with a slash always raises.
* Theorems: `Stored.dens_back`, `Stored.dens_incomplete`, `Stored.densities_back`, `Stored.dens_twice`, `Stored.weight_back`, `Stored.weight_into`

### C109 Files of angular spectra (partial)

* Modelled: spectra, kernels, weight functions shared under `/weight_functions`, the search for groups by the end of their path, both equalities.
* Proof: invariant over the spectra saved so far (which groups exist and what each holds), induction over the names in the file for the reader; witnesses.
* Limits: False of the code: weight functions of probes without spectra are lost, a second collection gets the weight functions of the first, spectra without kernel cannot be saved, equality is not symmetric. The round trip is proved for a new file under its root, and for what it keeps.
* Theorems: `Stored.coll_back`, `Stored.coll_back_eq`, `Stored.eq_iff`, `Stored.eq_asymmetric`, `Stored.cl_no_kernel`, `Stored.cl_no_kernel_left`, `Stored.load_no_kernel`, `Stored.weights_first`, `Stored.weights_lost`, `Stored.second_collection`

### C110 Files of covariances and of derivatives of spectra (partial)

* Modelled: covariances with optional probes and arrays, derivatives with keys of two probes.
* Proof: induction over dictionaries of objects saved under different names; witness without single covariances.
* Limits: False of the code for collections without joint or without single covariances: the file is written and cannot be read.
* Theorems: `Stored.delta_back`, `Stored.delta_back_new`, `Stored.delta_alone`, `Stored.derivs_back`

### C111 Files of cosmologies and power spectra (partial)

* Modelled: writers and readers of cosmologies, their parameters and power spectra on the file of C108, loading into an object, equality; the checks of C87 as a parameter and as they are.
* Proof: relocation of a save under a new path to an empty file; induction over parameters saved under different names; witnesses.
* Limits: Complete cosmologies and power spectra come back and compare equal. False as stated in four ways: without parameters, or with parameters that fail the checks, a cosmology is saved and cannot be read; without power spectrum the default reading fails; loading into an existing cosmology keeps its parameters, flatness and model beside the arrays of the file.
* Theorems: `CosmoFile.power_back`, `CosmoFile.power_incomplete`, `CosmoFile.power_eq_iff`, `CosmoFile.power_code_not_compared`, `CosmoFile.parsKept_lookup`, `CosmoFile.cosmo_back`, `CosmoFile.cosmo_back_checked`, `CosmoFile.cosmo_back_eq`, `CosmoFile.checked_kept`, `CosmoFile.cosmo_incomplete`, `CosmoFile.cosmo_incomplete_leaves`, `CosmoFile.cosmo_no_pars`, `CosmoFile.cosmo_no_power`, `CosmoFile.cosmo_unchecked`, `CosmoFile.moved_not_read`, `CosmoFile.load_keeps`, `CosmoFile.load_mixes`, `CosmoFile.load_model`, `CosmoFile.compare_raises`, `CosmoFile.compare_arrays`, `CosmoFile.load_missing`, `CosmoFile.compare_iff`

### C112 Probes and parameters of a forecast (partial)

* Modelled: reading of probes, shot noise file, cosmological, bias and extra parameters from the contents of the files, into a new object or one that has been read into before. Density files and specific settings are not modelled.
* Proof: induction over the entries; dictionaries updated one after the other look up the last declaration; witnesses for collisions and second files.
* Limits: False of the code: parameters of the same name replace each other in silence (collision_loses, extra_replaces_cosmological), an extra parameter may belong to another probe (extra_other_probe), entries under long names are refused or replaced by the entry under the alias (long_name_entry), reading a second file keeps probes of the first (stale_probe). Proved: when a file is read (load_ok_iff), its probes (load_probes), the parameters for any names (load_lookup) and exactly for distinct names (load_exact, load_bias, load_nuisance, load_probe_nuisance, load_varied), reading twice (load_twice), what a second file keeps (reload_keeps).
* Theorems: `FLoad.load_ok_iff`, `FLoad.load_probes`, `FLoad.load_lookup`, `FLoad.load_exact`, `FLoad.load_steps`, `FLoad.load_bias`, `FLoad.load_nuisance`, `FLoad.load_probe_nuisance`, `FLoad.load_varied`, `FLoad.load_twice`, `FLoad.reload_keeps`, `FLoad.collision_loses`, `FLoad.extra_replaces_cosmological`, `FLoad.extra_other_probe`, `FLoad.long_name_entry`, `FLoad.stale_probe`, `FLoad.load_nuisance_for`

### C113 Multipoles of a spectrum (partial)

* Modelled: common multipoles and mask, check of all combinations, grids of all spectra, grids computed or read from a file.
* Proof: the sorted intersection is a filter of an increasing grid; zip and filter; grids of C19; witnesses.
* Limits: False of the code: widths are those of the first probe (common_asymmetric), and for multipoles from a file that do not increase they belong to other multipoles (common_unsorted) or are too many (common_repeated). Proved: the rest, for increasing multipoles, which the computed grids are (binning_increasing).
* Theorems: `FLoad.common_pairs`, `FLoad.common_refused_iff`, `FLoad.common_swap`, `FLoad.auto_own`, `FLoad.auto_same`, `FLoad.cross_common`, `FLoad.check_iff`, `FLoad.all_grids`, `FLoad.binning_increasing`, `FLoad.linear_grid`, `FLoad.linear_common`, `FLoad.file_grid`, `FLoad.common_unsorted`, `FLoad.common_repeated`, `FLoad.common_asymmetric`

### C114 Shot noise given when the Fisher matrices are computed (proved)

* Modelled: loading of the fiducial spectra, noise file, evaluation of the blocks, joint matrices, entries that share the object of a block, collection read back from its file, preparation for the Fisher matrices.
* Proof: loops as relations between dictionaries; an evaluated block depends on spectrum, noise and sky fraction only; covariances depend on lookups only; witness on rational numbers.
* Limits: Beyond the statement: the joint matrices of the collection are not built again, so that after giving a file of shot noise they are those of the old noise (joint_stale). The Fisher matrices do not use them.
* Theorems: `Inputs.compute_blocks`, `Inputs.compute_entries`, `Inputs.prepare_none`, `Inputs.prepare_blocks`, `Inputs.prepare_missing`, `Inputs.prepare_recompute`, `Inputs.prepare_entries`, `Inputs.joint_stale`

### C115 Derivatives of spectra are fits through the spectra of the displaced parameter (partial)

* Modelled: choice of the cosmology file, one job of the angular task, collection of the spectra of a parameter from the listing, fit, zero and analytic branches; the same in one process. The computation of the spectra is a parameter.
* Proof: values and sorted spectra are both the image of the list of steps; parsing of directory names (C27, C65), step tables (C22), elementwise fit (C24); odd sums over symmetric steps vanish.
* Limits: False parts: from ten displacements on directories are misread (C65); in one process exactly seven displacements are needed (mem_needs_seven), the method of the parameter is not looked at, and spectra of other probes are fitted too; a cosmology file with other parameter values is used with a message only (load_inconsistent). bias_derivative shows that for constant biases the fit and the analytic derivative are the same.
* Theorems: `ClDer.load_choice`, `ClDer.load_inconsistent`, `ClDer.job_spectra_partial`, `ClDer.file_derivative_partial`, `ClDer.file_derivative_unrelated_partial`, `ClDer.file_derivative_incomplete`, `ClDer.unknown_method`, `ClDer.file_derivative_analytic`, `ClDer.mem_derivative_partial`, `ClDer.mem_needs_seven`, `ClDer.routes_agree_partial`, `ClDer.quadratic_exact`, `ClDer.bias_derivative`, `ClDer.stack_ragged`, `ClDer.report_iff`, `ClDer.load_unknown`

### C116 An analysis knows the matrices it was given, in a known order (partial)

* Modelled: the analysis as a state with base matrices, working matrices and the order that was set; the directory is the list of its files in the order of `glob`; matrices are objects on a heap.
* Proof: invariants over sequences of calls, induction over the list of files and of addends; witnesses for what fails.
* Limits: False parts: an order that was set stays when the working matrices change and may repeat names (order_stale); a list of matrices given to the constructor is dropped (list_dropped); loading from a missing directory empties the base matrices (load_no_directory), and a failing file leaves a part of the directory loaded (load_stops).
* Theorems: `Life.setOrder_spec`, `Life.order_unset`, `Life.order_covers_partial`, `Life.order_stale`, `Life.list_dropped`, `Life.load_ok`, `Life.load_stops`, `Life.load_no_directory`, `Life.load_iff`, `Life.fromDir_ok`, `Life.fromRun_lcdm`, `Life.subset_spec`, `Life.addends_value`, `Life.addends_missing`, `Life.fromRun_other`, `Life.construct_order`, `Life.construct_matrices`

### C117 A plot shows every matrix in its own colour and every parameter with its range (partial)

* Modelled: the plotter as a state (parameters, settings, ranges, positions in the colour map), the panel at each place, the computed ranges. Drawing is not modelled; the factor of the 99 percent interval is a parameter.
* Proof: the mean of affine functions; induction over requests of colours with the kept array as invariant; case analysis of panels.
* Limits: False parts: the range is the mean of the intervals, so intervals of worse matrices are cut (range_cuts); a matrix added after the first colour was asked for has none (color_missing); the default set up drops given ranges and settings (given_ranges_dropped); a dictionary of settings always fails (settings_dictionary_fails), and so do the plots of the collector of results (results_plots_fail); one parameter cannot be drawn (drawn_spec).
* Theorems: `Plot.colors_stable`, `Plot.position_distinct`, `Plot.color_missing`, `Plot.panels`, `Plot.drawn_spec`, `Plot.range_value`, `Plot.range_contains_partial`, `Plot.range_cuts`, `Plot.default_setup`, `Plot.given_ranges_dropped`, `Plot.results_plots_fail`, `Plot.settings_dictionary_fails`, `Plot.built_plotter`, `Plot.text_is_letters`, `Plot.ranges_written`

### C118 Collected results are the errors of the sums of matrices, for every cosmology (partial)

* Modelled: settings, check of the parameters and the whole chain of one cosmology (load, restrict, add, prepare, errors) on the heap of matrix objects.
* Proof: a rule for loops over references with an invariant of each object; sums of restricted matrices are the entrywise sums; composed with C116 and C12.
* Limits: False parts: with plots, which is the default, setting up always raises (plots_fail); a directory without matrices makes the table of errors fail (empty_directory); the JSON value true for the presence of a cosmology is refused (boolean_refused).
* Theorems: `Results.cosmology_sums`, `Results.cosmology_base`, `Results.collected_partial`, `Results.plots_fail`, `Results.cosmology_refused`, `Results.empty_directory`, `Results.config_spec`, `Results.boolean_refused`

### C119 Tables of results keep, select and compare the right rows (partial)

* Modelled: queries, removal of constant columns, the table of figures of merit with its alignment by index, the replacement of rows in place and the cells of a printed row.
* Proof: stable filtering and sorting by induction; uniqueness of the index makes every lookup the row meant; the loop over a snapshot with a changing table by an invariant that splits the table at the current row.
* Limits: False parts: unknown options of a query are ignored (query_unknown_ignored); a replacement that fails leaves the table half replaced and indexed, so that it can not be repeated (hybrid_half_done, hybrid_stuck); a loss is printed with two minus signs (latex_loss); without a column for the number of bins the first error is not printed (latex_error_lost). Tables with missing values or repeated indices are not modelled.
* Theorems: `Tables.query_dict_spec`, `Tables.query_unknown_ignored`, `Tables.select_spec`, `Tables.select_refused`, `Tables.select_columns`, `Tables.fom_spec`, `Tables.fom_iff`, `Tables.hybrid_succeeds_iff`, `Tables.hybrid_spec`, `Tables.hybrid_idempotent`, `Tables.hybrid_stuck`, `Tables.hybrid_half_done`, `Tables.latex_gain`, `Tables.latex_loss`, `Tables.latex_errors`, `Tables.latex_error_lost`

### C120 Orchestrated runs take their arguments from the prepared configuration directory (proved)

* Modelled: the making and reading of the tree of configurations, the power spectra, the lists of paths, the runs on existing directories and the program around them.
* Proof: the loop over the sub-directories by induction with a frame for the other entries; reading by induction over the listing, for every order; the runs by composing with the product of C32.
* Limits: Beyond the statement, facts a user may not expect: with two files where one is expected the listing order decides (one_file_by_order); preparing again resets the external directories (create_resets_external); JSON lists are not read although offered (json_list_not_read); blank lines become the current directory (blank_lines). Directories inside the sub-directories are not modelled.
* Theorems: `OrchIn.create_spec`, `OrchIn.create_ok_iff`, `OrchIn.create_keeps`, `OrchIn.create_same_file`, `OrchIn.configs_iff`, `OrchIn.configs_spec`, `OrchIn.prepared_configs`, `OrchIn.pmm_dirs_iff`, `OrchIn.suffix_txt`, `OrchIn.paths_spec`, `OrchIn.json_list_not_read`, `OrchIn.existing_keyvals`, `OrchIn.existing_arguments`, `OrchIn.existing_runs`, `OrchIn.main_refuses`, `OrchIn.main_work`, `OrchIn.main_create`, `OrchIn.existing_needs`, `OrchIn.existing_ignores_tree`, `OrchIn.orchestrated`, `OrchIn.fresh_refused`, `OrchIn.one_file_by_order`, `OrchIn.one_file_missing`, `OrchIn.create_resets_external`, `OrchIn.blank_lines`, `OrchIn.existing_launched_though_no`, `OrchIn.copies_from_tree`, `OrchIn.path_components`

### C121 The Fisher task computes every selected Fisher matrix once, rightly, in any order of its jobs and after interruptions (partial)

* Modelled: the jobs of the Fisher task as step machines on the directory of Fisher matrices, any number of them, interleaved and killed at any point; the two phases of the task in both ways of running it; the file of selected data vectors.
* Proof: invariants over all histories (what is held is right, one writer per file, tables before Fisher matrices); a measure for the end of every schedule; an invariant per phase that fixes the final state; blocked data vectors by an invariant; the data file by the kernel.
* Limits: False part: a batch run does not complete every interrupted directory. Killed between two auto-correlations, it fails for ever (batch_stuck, batch_can_get_stuck); killed between the last table and the last Fisher matrix, it succeeds without that Fisher matrix (batch_incomplete, batch_can_be_incomplete). Interactive runs do complete them (interactive_recovers). The values computed are parameters.
* Theorems: `FTask.never_wrong`, `FTask.never_lost`, `FTask.tables_never_lost`, `FTask.tables_first`, `FTask.task_exists`, `FTask.task_result`, `FTask.completes`, `FTask.same_in_both_modes`, `FTask.interactive_recovers`, `FTask.batch_recovers_partial`, `FTask.batch_stuck`, `FTask.cut_off_tables_stuck`, `FTask.task_keeps`, `FTask.cut_off_skipped`, `FTask.batch_incomplete`, `FTask.selected_names`, `FTask.selected_wf`, `FTask.batch_can_get_stuck`, `FTask.batch_can_be_incomplete`, `FTask.cut_off_can_be_skipped`

### C122 The configuration saved from the window gives back the forecast on the screen (partial)

* Modelled: the window as a structure of its fields, boxes and tables; saving, function by function, to JSON values; reading the JSON values entry by entry into the model of C112; the name of the file. Qt, JSON text and `float` are parameters.
* Proof: the file is computed in closed form from the screen (`save_file`), read back in closed form (`readFile_iff`), and the theorems of C112 are applied to it.
* Limits: False parts: with the void tab ticked the file cannot be read (void_never_loads); the alignment parameters are filed under WL instead of Lensing, so lensing with intrinsic alignment cannot be computed (alignment_missing); the synthetic options are left out (synthetic_missing); the boxes for external multipoles have no effect (external_box_ignored); displacements are not checked (displacements_unchecked); the extension can be missing (name_without_extension). JSON text, Qt and float parsing are parameters.
* Theorems: `Gui.saves_iff`, `Gui.shows_unique`, `Gui.settings_saved`, `Gui.reads_iff`, `Gui.round_trip`, `Gui.metadata_irrelevant`, `Gui.name_ends_partial`, `Gui.void_never_loads`, `Gui.alignment_missing`, `Gui.synthetic_missing`, `Gui.external_box_ignored`, `Gui.displacements_unchecked`, `Gui.name_without_extension`, `Gui.alignment_iff`

### C123 The stored Fisher matrices hold the information of the spectra, from the spectra to the files (proved)

* Modelled: the evaluation of C15-C17 as what the jobs of C121 compute: the brief string is read into correlations, the tables stored by the first jobs are looked up, the result is wrapped in a Fisher matrix.
* Proof: positive definiteness of the joint spectra gives regular covariances (C61); `fisher_spec` gives the entries; the 33 names are read by kernel evaluation of the whole table; `completes` and `never_wrong` carry the values to the files.
* Limits: Positive definite joint matrices make every covariance regular, so no inversion fails. Rounding is not modelled.
* Theorems: `Cov.survey_fisher`, `FTask.right_forecast`, `FTask.forecast_files`, `FTask.forecast_never_wrong`

### C124 The order of the correlations in a data vector does not change its Fisher matrix (proved)

* Modelled: as C123.
* Proof: the covariances of two listings are related by a bijection of their places (`exists_place`), under which the quadratic form is invariant.
* Theorems: `Cov.order_irrelevant`

### C125 More correlations never give less information (partial)

* Modelled: as C123, with the marginalised errors of `Fisher`.
* Proof: the information is the maximum of a concave form over test vectors (`info_variational`), and restricting to fewer correlations restricts the test vectors; errors by the order on Fisher matrices.
* Limits: True if the larger data vector has the same common multipoles or the smaller is a single auto-correlation. False otherwise: adding the auto-correlation of a probe with fewer multipoles drops the correlations between the other probes at the multipoles it lacks (information_lost), and counts their correlated auto-correlations as independent there (information_made_up).
* Theorems: `Cov.more_information_partial`, `Cov.errors_do_not_grow_partial`, `Cov.information_lost`, `Cov.information_made_up`

### C126 A forecast submitted as a batch job is the forecast that was asked for (partial)

* Modelled: the options of `run_seyfert` with their kinds and defaults, `argparse` on long names, the writing of the command line of a job, its splitting by the shell, and the loops over the configurations.
* Proof: writing and parsing are inverse for every kind of value (`toPath_pathText`, `parseInt_intText`, `convert_str`), the dictionary read is the dictionary written by induction over its options (`assign_words`), and the loops by induction over the configurations.
* Limits: Proved for options and paths made of characters the shell leaves alone and not beginning with a dash, configurations whose names do not end in .txt, and flags not given. False otherwise: values are not quoted (space_breaks_job), a configuration ending in .txt becomes a list of configurations in the job (text_becomes_list), and a flag given the word False is on (false_is_true).
* Theorems: `RunS.batch_is_interactive_partial`, `RunS.job_is_forecast_partial`, `RunS.configs_once`, `RunS.own_directories`, `RunS.modes`, `RunS.space_breaks_job`, `RunS.text_becomes_list`, `RunS.false_is_true`, `RunS.whole_numbers_pass`

### C127 Jobs that run at the same time do not disturb each other (partial)

* Modelled: the shell scripts of the jobs as lines of text and what the shell makes of them, the command lines of `compute_pmm`, `compute_cls` and `compute_derivatives`, the files of a run as a map from paths to contents, and the programs as sequences of steps on the files; a schedule is any list of jobs, each occurrence a step. The Boltzmann code and the theory are parameters.
* Proof: the script is read back to the directory of the job (`bash_script`, `args_script`); every step reads shared files and files of the job and writes only the latter (`indep`), from which mixing is unmixed by induction over the schedule (`Indep.mixed`); after three steps every job has ended (`alone_after`); beginning again at any step leads to the same end (`after_alone`); the tasks are then composed with C115 (`pipeline_partial`).
* Limits: Proved for run directories of characters the shell leaves alone, parameters named by letters and digits, at most nine steps, and configurations whose names are not those of results. Files are written whole: a job stopped within writing a file is not modelled. False otherwise: paths are not quoted in the scripts (space_stops_job); results that are there already stay although the configuration has changed (old_results_kept).
* Theorems: `Job.script_runs_partial`, `Job.space_stops_job`, `Job.at_any_time_partial`, `Job.same_results_partial`, `Job.inTurn_complete`, `Job.stopped_and_rerun_partial`, `Job.power_results_partial`, `Job.spectra_results_partial`, `Job.derivative_results_partial`, `Job.old_results_kept`, `Job.pipeline_partial`

### C128 Final results by batch jobs are those of a direct call (partial)

* Modelled: the options of `evaluate_final_results`, the list of run directories, the calls of `create_final_results` it makes, the command lines of the jobs it submits and what the shell and the parser make of them, and the command line by which a forecast calls the program.
* Proof: a command line on which every option is written is read back to the same values (`Cli.parse_written`, by induction over the options), and what the parser gives is of the kind of its option (`Cli.parse_shape`); the job then makes the call of its directory (`job_runs`). The command line of a forecast is parsed option by option (`parse_forecast`).
* Limits: Proved for options and run directories which are plain words for the shell and run directories without the suffix .txt, and for the overwrite option being True or False. False otherwise: a path with a space or beginning with a dash (space_stops_results, dash_stops_results), a run directory ending in .txt (txt_directory_is_list); the json lists announced in the help are taken for run directories (json_list_is_directory); other values of the overwrite option of a forecast remove the old results without making new ones (number_removes_results).
* Theorems: `Eval.batch_like_interactive_partial`, `Eval.forecast_results_partial`, `Eval.odd_overwrite_no_results`, `Eval.number_removes_results`, `Eval.unset_overwrite_no_results`, `Eval.text_false_removes`, `Eval.space_stops_results`, `Eval.dash_stops_results`, `Eval.txt_directory_is_list`, `Eval.json_list_is_directory`, `Eval.blank_line_is_here`, `Eval.empty_list_modes`

### C129 Equality of densities, biases, kernels, weight functions and spectra (partial)

* Modelled: `compare_objects` and the `==` of the eight classes: objects are lists of attributes, arrays have axes and elements, with the stretching of numpy; the reaction of numpy to arrays which do not fit is a parameter. NaN is left out.
* Proof: the comparison of two attributes of the same sort decides `SameVal` (`compare_alike`, with `allEq_same` for arrays and `dictEq_iff` for dictionaries), and by induction over the attributes so does that of objects (`conditions_alike`); symmetry and transitivity follow from those of `SameVal`.
* Limits: Proved for objects with arrays of the same shapes in the same attributes; that the same data is equal is proved without this. False otherwise: an array of length one equals a longer one with that element everywhere (stretched_equal), arrays which do not fit raise (misfit_raises), an empty array equals anything which is no array (empty_equals_none), attributes only the second object has are not compared (extra_attribute), nor are spectra which only the second collection has (extra_spectrum), weight functions of different probes are equal (probes_not_compared), and the name printed is that of another attribute if one is excluded (wrong_name_reported).
* Theorems: `Same.equal_iff_partial`, `Same.same_are_equal`, `Same.equal_refl`, `Same.equal_symm_partial`, `Same.equal_trans_partial`, `Same.listed_iff_partial`, `Same.collections_iff_partial`, `Same.extra_spectrum`, `Same.reported_right_partial`, `Same.stretched_equal`, `Same.misfit_raises`, `Same.empty_equals_none`, `Same.extra_attribute`, `Same.probes_not_compared`, `Same.wrong_name_reported`, `Same.densities_equal_iff_partial`, `Same.weights_equal_iff_partial`, `Same.powers_equal_iff_partial`, `Same.spectra_equal_iff_partial`, `Same.deltas_equal_iff_partial`

### C130 Independent probes add up (partial)

* Modelled: the model of C123 (`computeFisher`, `fisherMatrixOf`, `FM.add`); the specification of independent probes is in `Spec/Independence`.
* Proof: the covariance of the joint data vector is block diagonal in the order of the groups, so that its inverse is too (`fisherSpec_append`); separate probes by induction over the list of probes (`autos_info`), in any order of the data vector by C124; the multipoles which are not shared are counted apart (`groups_total`).
* Limits: Proved for groups whose probes share the same multipoles as all probes together, and for groups of probes separate from each other with any multipoles. Assumed: a complete survey (as in C123), and that no spectrum depends on nuisance parameters of other probes, which the derivative code enforces. False otherwise: a third, uncorrelated probe with fewer multipoles lowers (sum_rule_lost) or raises (sum_rule_made_up) the information of the first two.
* Theorems: `Cov.independent_groups_partial`, `Cov.separate_probes`, `Cov.sum_rule_lost`, `Cov.sum_rule_made_up`

### C131 The Fisher matrices are computed from what the jobs of the run have written (partial)

* Modelled: `findFile`, `getClFile`, `getDerFile`, `readCls`, `readDer`, `readDerivs` over listings of directories in any order (`Shows`), on the files of the jobs of C127.
* Proof: what is found by a pattern is characterised outright (`findFile_iff`, `reads_iff`); what is in the directories after any schedule follows from the independence of the jobs (C127); the whole run from `pipeline_partial`. `listing` shows that the assumption on listings can be met for all finite disks.
* Limits: Proved for plain paths and at most nine steps, as C127, and for directories without files of derivatives before; empty directories and the logs of the jobs are not represented (an empty directory in Derivative stops the computation, as a directory without derivatives does). False otherwise: if the job fails while there is an older file of the same name, the old derivatives are used (stale_derivative).
* Theorems: `Job.reads_iff`, `Job.fisher_reads_partial`, `Job.missing_derivative`, `Job.other_name_stops`, `Job.stale_derivative`, `Job.spectra_found_partial`, `Job.run_to_fisher_partial`, `Job.listing`

### C132 A session computes the angular spectra of its own configuration (partial)

* Modelled: the class `Seyfert` with its dictionary of arguments (by address, because the default is shared), its files, the densities file and the directory tree; `step` has one operation per method, restarts, and processes killed while preparing or writing densities. Reading configurations and the computations are parameters (`Lib`).
* Proof: invariant over all histories (`Inv`, `step_inv`): every object has what the configuration of its directory gives, and every densities file is the one of the configuration; `Conf.spectra` computes from the files directly. Success by `session_ok`; the false parts by theorems about all states, and witnesses on a small library.
* Limits: Proved for histories in which every object has its own arguments, every run directory its configuration, and the flatness given agrees with the configuration. False otherwise: the densities of a directory are never computed again (densities_first, densities_stale), not even if the process was killed while it wrote them (interrupted_densities); an object prepared again keeps its cosmology and densities (prepare_keeps, prepared_again_mixes); the flatness is not read from the configuration (flat_not_read); objects made without arguments share one dictionary (defaults_shared); a data directory given as text always fails (text_data_fails). The contents of the files and the computations are parameters.
* Theorems: `Sess.session_partial`, `Sess.session_ok`, `Sess.niz_kept`, `Sess.densities_first`, `Sess.interrupted_densities`, `Sess.prepare_keeps`, `Sess.no_workdir`, `Sess.text_data_fails`, `Sess.defaults_shared`, `Sess.own_arguments`, `Sess.cls_needs`, `Sess.power_dir_not_linked`, `Sess.densities_stale`, `Sess.flat_not_read`, `Sess.prepared_again_mixes`

### C133 A job has the settings which its runner had when it wrote the configuration (proved)

* Modelled: `MainConfig` and its classes on JSON values: constructor, `loadFromJSON`, `writeToJSON`, all getters and setters, `cfg[k] = v`, `del cfg[k]`; a state with any number of configurations and files.
* Proof: a setting is a place in nested dictionaries (`get_place`); the setters are composed of changes in place, for which `Sets` is proved by composition; that no place lies on the way to another is a finite table; copies by invariants over all histories (distinct keys, type first).
* Limits: Values of settings are not shared between dictionaries; what json.dump writes is what json.load reads.
* Theorems: `TaskCfg.get_place`, `TaskCfg.set_get`, `TaskCfg.set_works`, `TaskCfg.job_settings`, `TaskCfg.job_copy`, `TaskCfg.failed_unchanged`

### C134 The settings of the configuration file are used as they stand there (partial)

* Modelled: `z_grid` with `np.linspace`, `int(...)` of the spline settings, `config_for_task`.
* Proof: the grid against `Even`, which determines it (`even_unique`); the rest by cases.
* Limits: False: a grid of one point has z_min only (one_point), and is not refused; a smoothing which is not whole is cut off, so that every smoothing below one is none (smoothing_cut); files of other tasks are accepted (for_task_iff, other_task_accepted).
* Theorems: `TaskCfg.grid_even_partial`, `TaskCfg.even_unique`, `TaskCfg.even_ends`, `TaskCfg.one_point`, `TaskCfg.grid_points_whole`, `TaskCfg.grid_negative`, `TaskCfg.spline_partial`, `TaskCfg.smoothing_cut`, `TaskCfg.for_task_iff`, `TaskCfg.other_task_accepted`

### C135 Converting the angular spectra of another code gives one file per cosmology, with the spectra of its own files (partial)

* Modelled: `buildCosmoClsFilesDict` and `convertSCameraDerivativesInput` with any way of saving, and with the saving of `Stored`.
* Proof: the files of a cosmology by induction over the listing against `LastOf`; the loop against `Converted` for all lists of cosmologies; that saving stops by computation with symbolic arrays.
* Limits: False: the conversion never succeeds, since the spectra have no kernel and can not be saved (convert_raises); it leaves the first cosmology with one of its spectra (convert_left). If the spectra could be saved the files would be the right ones (convert_ok_partial), but different numbers of multipoles would be refused only at the end and with another exception (convert_counts), different multipoles not at all (multipoles_accepted), and with two files for one cosmology the order counts (order_matters).
* Theorems: `SCam.build_ok_iff`, `SCam.build_files`, `SCam.convert_raises`, `SCam.convert_left`, `SCam.convert_ok_partial`, `SCam.convert_counts`, `SCam.multipoles_accepted`, `SCam.order_matters`, `SCam.lastOf_single`

### C136 The derivatives of another code are read for the parameter and the probes they belong to (partial)

* Modelled: `readSCameraClDerivatives` with its regular expression.
* Proof: induction over the files found, against `IsDer`; the regular expression by induction over the skipped text.
* Limits: False: with two files for one parameter and pair of probes the order counts (ders_order), and multipoles are not compared (ders_multipoles). Otherwise the result has every file (ders_each_partial).
* Theorems: `SCam.ders_ok_iff`, `SCam.ders_last`, `SCam.ders_each_partial`, `SCam.der_name`, `SCam.ders_multipoles`, `SCam.ders_order`

### C137 The program which compares two runs compares all their results, reports every difference, and saves the comparison (partial)

* Modelled: `bin/compare_runs` and `run_loader.py`: loading both runs, `evaluate`, `testAllMetrics`, saving and loading. A file holds what its reader gives or cannot be read; configurations and matter spectra metrics are left out.
* Proof: loading against `Loadable` for all directories by induction over the listings; each comparison against `IsDiff`, `IsDiffTab` and `SixDiffs`, entry by entry; saving and loading by the laws of dictionaries.
* Limits: False: a run with derivatives is never loaded (derivatives_stop), the directories read are not those the program writes (other_directories, own_runs_stop), so that runs of the program itself are never compared; the spectra of the fiducial cosmology are lost (fiducial_missing); background, spectra and derivatives are compared but not reported (only_matrices_tested, spectra_not_tested); derivatives which one run lacks give no warning (derivatives_unwarned); negative entries always agree (negative_entries_pass). What is compared is right, and saving and loading give back the comparison.
* Theorems: `RunCmp.version_iff`, `RunCmp.load_ok_iff`, `RunCmp.derivatives_stop`, `RunCmp.comparison_stops`, `RunCmp.loaded`, `RunCmp.spectra_found_partial`, `RunCmp.fiducial_missing`, `RunCmp.other_directories`, `RunCmp.needs_results`, `RunCmp.own_runs_stop`, `RunCmp.cosmos_compared`, `RunCmp.fishers_compared`, `RunCmp.errors_compared`, `RunCmp.derivatives_compared`, `RunCmp.spectra_compared`, `RunCmp.warned_iff`, `RunCmp.report_lines`, `RunCmp.only_matrices_tested`, `RunCmp.saved_and_loaded`, `RunCmp.nothing_saved`, `RunCmp.spectra_not_tested`, `RunCmp.derivatives_unwarned`, `RunCmp.negative_entries_pass`, `RunCmp.cosmologies_found_partial`

### C138 Files of earlier versions are read completely, and what is read can be used and saved like data of the current version (partial)

* Modelled: `retro_comp.py`: the readers of old cosmologies, spectra and derivatives, the writer of old cosmologies, and saving what was read (up to the kernel, where it stops). Data sets read are arrays; a text counts as an error.
* Proof: reading against `Is104`, `Par110`, `OldAt` and `DerAt`, which spell the paths out, both ways; what a writer leaves in a file by induction over its calls.
* Limits: False: no file of the writer of old files is read (old_unreadable), cosmologies before 1.1.0 lose growth, parameters and Hubble constant (read104_lost), 1.1.0 never has a power spectrum and older ones always (power_asked), and old spectra call themselves None_None and cannot be saved (old_key, old_not_saved). Proved: when each format is read and what is read from it.
* Theorems: `Retro.read104_iff`, `Retro.read104_lost`, `Retro.writeOld_iff`, `Retro.old_unreadable`, `Retro.read110_spec`, `Retro.read110_ok_iff`, `Retro.hubble110`, `Retro.current_not_110`, `Retro.power_asked`, `Retro.readCls104_ok_iff`, `Retro.readCls104_spec`, `Retro.old_key`, `Retro.old_not_saved`, `Retro.readDcl_ok_iff`, `Retro.readDcl_spec`, `Retro.current_dcl`

### C139 Translating a text to TeX replaces exactly the names in it, independent of the order of sets (partial)

* Modelled: `tex_utils.py`: the translator of whole texts, of raw tables and of legends. A regular expression is the function of what it matches at the start of a text; `re.sub` goes from left to right. The order of the sets of names is a parameter.
* Proof: `Done` says that the words of one table are replaced and all else kept; a chain of replacements is one replacement with the joined table, if no word of a later one can overlap a result of an earlier one, which is checked on the whole tables; the result of a table is unique, so the order of sets has no effect. Marks by induction over the cells.
* Limits: False: parameters are only found between two blanks, so a name alone stays (alone_missed) and of two names with one blank between the second stays (second_missed); XCl is translated twice over its shared letter (shared_letter, so plot texts are proved without it); a loss of 0.00 percent is marked as a loss (zero_loss). Proved: the result for all texts against one table of words, in every order of the sets, cells of rows, marks, lines and legends.
* Theorems: `TeXText.translate_order`, `TeXText.plot_text_partial`, `TeXText.alias_text`, `TeXText.shared_letter`, `TeXText.second_missed`, `TeXText.alone_missed`, `TeXText.row_text`, `TeXText.marks_row`, `TeXText.zero_loss`, `TeXText.table_text`, `TeXText.cline_rule`, `TeXText.legend_text_partial`

### C140 Stopping runs ends all runs and nothing else (partial)

* Modelled: `bin/kill_job_submitter` on the text of `ps -ef`; what `ps` prints is a specification (`Proc.line`): names of users over eight characters are cut.
* Proof: the expression matches a line exactly if the first column is of letters and a program is named after a blank or slash; the text is taken apart line by line, by induction.
* Limits: False: runs of users with more than eight characters or with anything but letters in the name are never found (long_names_spared), programs working on a file named like the submitter are ended too (editor_stopped), and runs by run_seyfert are not (interactive_spared). Proved: exactly which processes are ended, and that the program spares itself.
* Theorems: `Tools.kills_spec`, `Tools.runs_stopped_partial`, `Tools.others_spared`, `Tools.says_iff`, `Tools.long_names_spared`, `Tools.itself_spared`, `Tools.editor_stopped`, `Tools.interactive_spared`

### C141 The report on batch jobs tells the failed ones (partial)

* Modelled: `bin/report_batch_jobs` with its default pattern; directories of runs with the files in `batch_logs/out`.
* Proof: search in lines against `HasLine` by induction over the text; the names of logs against those `submitJob` makes.
* Limits: False: a run without a log is not noticed, so that success is reported for jobs which wait or were killed (waiting_unnoticed), and a failure added to a log after a success counts as a success (later_failure_hidden). Proved: which logs are read, when one counts as success, and the report on them.
* Theorems: `Tools.jobDone_iff`, `Tools.report_spec`, `Tools.outFiles_iff`, `Tools.submitted_found`, `Tools.waiting_unnoticed`, `Tools.later_failure_hidden`

### C142 The integration test runs the versions asked for and restores the repository (partial)

* Modelled: the part of `bin/run_integ_test` that reads and changes the version checked out; `git branch` and `git checkout` are modelled by what git does. The runs themselves are those of the job submitter (C79 to C85), their comparison is C137.
* Proof: what the expression finds in the output of `git branch`, then one run, then two.
* Limits: False: unknown versions are passed over (unknown_versions); only the first small letters of the name of the branch are read, so that other branches are not restored (branch_lost), another one is checked out (branch_changed), or the second run is never made (second_fails); and without a branch nothing is done (integ_refused_iff). Proved for branches of small letters.
* Theorems: `Tools.integ_refused_iff`, `Tools.integ_run`, `Tools.integ_ok_partial`, `Tools.unknown_versions`, `Tools.branch_lost`, `Tools.branch_changed`, `Tools.second_fails`

### C143 The runs loaded for a scenario are those of the scenario (partial)

* Modelled: `load_workspaces_for_scenario` and `load_fisher_analyses_for_scenario` on the entries of a directory in the order of `iterdir`; loading one analysis is C116.
* Proof: the expression for names against `RunName`, then induction over the entries: the last run of each number stays.
* Limits: False: with a directory given the scenario has no effect (scenario_unused), so that a pessimistic run is loaded as an optimistic one (scenario_wrong), and of two runs with the same number of bins one is lost, depending on the order of the directory (same_bins). Proved: exactly which runs are loaded, and that all are if their numbers of bins differ.
* Theorems: `Scen.matchRun_iff`, `Scen.runs_loaded`, `Scen.all_runs_partial`, `Scen.one_kind`, `Scen.analyses_ok`, `Scen.scenario_unused`, `Scen.scenario_wrong`, `Scen.same_bins`

### C144 Replacing the matrices with the three-dimensional spectrum (partial)

* Modelled: the replacement loop on dictionaries of references, with the matrices on the heap of `FisherStore`.
* Proof: invariants of both loops for the references; a method that does nothing the second time may meet a shared matrix any number of times (`Done`), and preparing a matrix is such a method.
* Limits: False: afterwards the analyses share the matrices, so that an operation in place on one changes the others (changes_shared, four_bins_changed), and a missing matrix ends the replacement half way (replaced_half). Proved: when it succeeds, what each analysis has then, and that preparing the matrices of all analyses prepares each of them although the shared ones are prepared several times.
* Theorems: `Scen.replaced_iff`, `Scen.replaced`, `Scen.replaced_half`, `Scen.changes_shared`, `Scen.prepare_again`, `Scen.inverted_all`, `Scen.four_bins_changed`

### C145 The file made for a redshift density is the density described (partial)

* Modelled: `main` of `create_h5density` on a dictionary of files, each the HDF5 file of `Stored`; `float` and `eval` of the sky fraction are parameters.
* Proof: the builder against `Describes`, the round trip of `Stored` for a new file; a file that has its first data set refuses every later run (`Begun`), an invariant over histories.
* Limits: False: a run for a file that is there is refused only after it has written its probe into the file, so that the density of another probe is read from then on (renamed), and a sky fraction which is not a number fails half way, leaving a file which no later run can complete (half_written, never_again). Proved: exactly when a run succeeds, that the file then holds the density described, and that over every history the density stays the one first made but for the name of its probe.
* Theorems: `DMake.made`, `DMake.made_iff`, `DMake.runs_begun`, `DMake.refused`, `DMake.renamed`, `DMake.half_written`, `DMake.never_again`, `DMake.history_partial`

### C146 A density file made by the program can be used in a forecast (partial)

* Modelled: `RedshiftDensity.fromHDF5`, the reading of the instrument in `setUp` and `evaluateSurfaceDensity` on the file just made; integrals and splines are parameters.
* Proof: computation on the density that `made` reads back.
* Limits: False: a density given bin by bin (--has_niz) is written without its surface densities, and every forecast stops with a TypeError when it takes the file up (niz_unusable). Proved for densities made from one distribution and an instrument.
* Theorems: `DMake.taken_up`, `DMake.niz_unusable`, `DMake.incomplete_response`

### C147 The tables of the results show every result asked for with its gain (partial)

* Modelled: `get_sub_table` with `add_deltafom_column` on lists of rows (matrix, bins, numbers); the rounding is a parameter, the order of the rows of `df.loc` is left open.
* Proof: the rows kept by `drop_duplicates` against `Shown` (no row before with the same rounded numbers), by induction; the gains from `diffAt_iff` of `Tables`.
* Limits: False: rows with equal rounded numbers are dropped although matrix or bins differ, so a reference with the same results for all bins leaves gains for one number of bins only (gains_one_bin), and a matrix with the results of another is missing or stops the table (twin_lost); a LaTeX table without a multi-index declares too few columns (latex_columns), and with the index written the widths go to other columns (excel_widths). Proved: exactly when a table is made, exactly which rows it has and in which order, each gain, and that all results are there if no two are equal after rounding.
* Theorems: `BTab.table_iff`, `BTab.table_rows`, `BTab.table_all_partial`, `BTab.gains`, `BTab.gains_one_bin`, `BTab.twin_lost`, `BTab.latex_columns`, `BTab.excel_widths`, `BTab.excel_kept`

### C148 A contour plot is of the one analysis asked for and kept under its own name (partial)

* Modelled: the helpers in `contours.py` and `misc.py` on tables of analyses (options, matrices with errors, metadata), with `query` and `subsetAnalysis` of `Collector`; names of files as lists of parts, the writing of values into names is a parameter.
* Proof: the query against `OnlyRow` (one row fits, no other), the metadata by the lemmas on dictionaries; the names of files by splitting at underscores.
* Limits: False: collections made by the present version have neither run ids nor a column n_bins, so that no analysis is chosen (collected_never) and no plot made (bins_never); the scenario is overwritten by the beginning of the run id (chosen); ranges are written whatever the options say, to a file shared by plots of other parameters (ranges_shared), and plots of other scenarios or options go to the same file (plots_shared); matrices with a space in their name cannot be chosen (spaced_never). Proved: exactly when a choice succeeds and what is returned, which plots share a file, which options count.
* Theorems: `Contour.query_one`, `Contour.chosen_iff`, `Contour.chosen`, `Contour.collected_never`, `Contour.bins_never`, `Contour.ranges_shared`, `Contour.plots_shared`, `Contour.plot_file_iff`, `Contour.options_iff`, `Contour.colours_enough`, `Contour.subset_all_iff`, `Contour.spaced_never`, `Contour.files_written`, `Contour.ranges_file_iff`, `Contour.case_matrices`

### C149 Bar plots show the errors of the matrices asked for (partial)

* Modelled: the rows and numbers of a bar plot over an ordered field, the panels with a legend.
* Proof: the largest figure of merit by induction over the rows.
* Limits: Proved but for the legend: a pair of panels with the same number of bins gets two (pair_legends).
* Theorems: `Contour.slice_iff`, `Contour.slice_bounds`, `Contour.pair_legends`, `Contour.grid_legend`

### C150 A collection of results is complete or as it was (partial)

* Modelled: `main` of `bin/collect_results` and `collectAndDumpResults` as a list of changes to the output directory with the exception at its end; tables by `Collector.buildErrorsTable`, the table of analyses is given or fails.
* Proof: induction over the keys for any number of changes made (`collect_way`); the directories of different keys do not touch (`foldl_other`).
* Limits: False for failures: the tables are written before the analyses are loaded, so that new tables stand beside old analyses (tables_beside_old, failed_at), and one key that cannot be collected ends the program with the others half replaced. Proved: exactly when the program succeeds, what it then leaves, repetition also after a stop at any point, and the state at every point of interruption. A file interrupted while it is written is not modelled.
* Theorems: `CProg.succeeds_iff`, `CProg.all_collected`, `CProg.again`, `CProg.completed_after_stop`, `CProg.stopped_state`, `CProg.failed_is_stopped`, `CProg.failed_at`, `CProg.tables_beside_old`

### C151 Options given to a program are read back under their names (partial)

* Modelled: `DictLike` as a dictionary with the names found in the class before it, the five classes of `cmd_line.py` as lists of names with the test for paths.
* Proof: histories by induction from the end against `latest`; the change of types by induction over the items, the classes by a table.
* Limits: False for names of methods of dictionaries, which hide options called so (method_hides), and for files and directories whose name has digits only: the command line is converted before, and a number is refused as a path (number_refused). Proved for all other names and values, with the exact condition on arguments.
* Theorems: `Args.attribute_history`, `Args.refused_iff`, `Args.method_hides`, `Args.construct_iff`, `Args.construct_attributes`, `Args.other_refused`, `Args.path_options`, `Args.path_names`, `Args.number_refused`, `Args.read_again`, `Args.without_arguments`, `Args.step_number`

### C152 A directory of final results has the matrices and tables of one run (partial)

* Modelled: the calls of the program as a list of directories made, matrices and tables written, each with the states on its way (deleted, begun); a directory as files by name; histories of starts as an inductive relation.
* Proof: induction over the states on the way (`states_ind`) against the last call that writes a file (`lastF`, `lastT`), which is computed for the six directories; histories by induction.
* Limits: The last sentence is false: with overwriting, matrices of earlier runs that the present run does not write stay in the directory and are read with the others (stale, with the exact condition exactly_iff); without overwriting, tables of an earlier run are kept beside new matrices (tables_kept). A run stopped after its first matrix can only be completed with overwriting (never_completed, repaired), and while it overwrites, matrices are missing for a moment (deleted_first) and stand beside the old tables (mixed). All else is proved.
* Theorems: `FFiles.overwritten`, `FFiles.exactly_iff`, `FFiles.repaired`, `FFiles.stale`, `FFiles.mixed`, `FFiles.deleted_first`, `FFiles.stopped_matrix`, `FFiles.kept`, `FFiles.succeeds_iff`, `FFiles.never_completed`, `FFiles.tables_kept`, `FFiles.first_run`

### C153 The combinations of the shipped list (proved)

* Modelled: the lines of the two data files and how they are read; combinations by the observables of their operands as specification.
* Proof: the tables by `decide +kernel`, lifted to all their members; the values from `combinations_all` and `final_results`; that differences can be inverted from the form being positive, where marginalising takes the least value of the form over the dropped parameters (`least_value`).
* Limits: The lists of names are finite tables checked by the kernel and lifted; everything about matrices is for all matrices. Without more information no result of the treatment is produced at all (same_information_refused). One combination is listed twice, without effect (listed_twice).
* Theorems: `Combos.load_spec`, `Combos.shipped_read`, `Combos.base_labels`, `Combos.written_labels`, `Combos.operands_known`, `Combos.counted_once`, `Combos.listed_twice`, `Combos.evaluated`, `Combos.entries_tally`, `Combos.entries_content`, `Combos.nonneg`, `Combos.result_names`, `Combos.shipped_form`, `Combos.results_succeed`, `Combos.same_information_refused`, `Fisher.least_value`, `Fisher.more_prepared`, `Fisher.difference_posDef`

### C154 The transition matrix (proved)

* Modelled: the list of rows of `duplicationMatrix` as a matrix, the pseudo-inverse as a relation.
* Proof: the duplication matrix is the indicator of a map onto the places of the upper triangle; averaging over the fibres of that map meets the conditions, and at most one matrix does.
* Limits: The pseudo-inverse is specified by the conditions of Penrose, over the real numbers; the cut-off of numpy for small singular values (1e-15 of the largest, where the ratio of these is at least 0.7) is not modelled.
* Theorems: `Linalg.pinv_unique`, `Linalg.transition_exists`, `Linalg.transition_spec`, `Linalg.transition_symmetric`, `Linalg.transition_duplication`

### C155 The external matrix of spectroscopic clustering in a run (partial)

* Modelled: the directory of base matrices with names of files and names inside them, and the results, as a machine whose steps are those of the three programs.
* Proof: an invariant over all histories and stops (each complete file holds a matrix of the run or the external one); reading in any order by induction on the listing; the refusals by following the steps.
* Limits: Proved for all histories of one scenario. False for histories of two scenarios (scenarios_mixed), for starting a program again (direct_refused, tasks_refused; evaluate_final_results completes the run), for scenarios without an external matrix (no_external), and a forecast by tasks ends as if all was well when its results were not written (tasks_silent). Final results are one step here; their files are C152.
* Theorems: `Pk.external_read`, `Pk.order_irrelevant`, `Pk.overwrite_recovers`, `Pk.evaluate_completes`, `Pk.direct_refused`, `Pk.tasks_refused`, `Pk.no_external`, `Pk.tasks_silent`, `Pk.scenarios_mixed`

### C156 The errors of final results are in the order of what is assumed (proved)

* Modelled: the model of C59 over the reals.
* Proof: marginalising is the least value of the form over the dropped parameters, fixing is its value at zero; so the forms of the treatments are ordered, sums keep the order, and the inverse turns it round. For a difference the subtracted form is compared at the minimum of the first.
* Limits: Exact real numbers. The order with fixed nuisance parameters needs that no parameter is cosmological in one matrix and nuisance in another. Differences with further terms are not ordered by these theorems.
* Theorems: `Fisher.results_ordered`, `Fisher.difference_reversed`, `Combos.shipped_treatments`, `Combos.order_fails_for_differences`

### C157 Less sky and more shot noise never improve a forecast (proved)

* Modelled: the models of C52, C61 and C123 over the reals.
* Proof: the quadratic form of the covariance is that of the Kronecker square of the spectra on a vector that does not depend on them; a positive semidefinite addition to the spectra makes the Kronecker square larger, and completing the square turns a larger covariance into less information, multipole by multipole. Shot noise adds a nonnegative diagonal matrix; the fraction of the sky is a common factor of all covariances.
* Limits: Exact real numbers. The shot noise and the fraction of the sky are varied independently, as the configuration does. That the stored spectra have the normalised form is C52 (`evaluate_spec`).
* Theorems: `Cov.larger_spectra`, `Cov.larger_spectra_errors`, `Cov.more_noise`, `Cov.sky_fraction`, `Cov.sky_errors`

### C158 The matter power spectrum of an object belongs to the code, the settings and the parameters of its last computation (partial)

* Modelled: objects with a code, a configuration and parameters by reference and a solver that is kept, files by place, the two codes as functions of the text of the ini file and of the parameters, in `Model/PowerEval`.
* Proof: a solver is made anew for a known code and its result depends only on the reference file and the parameters, by cases along the call; the history is an induction from its end; the tuning ends in three rounds, since the second evaluation gives the sigma8 asked for; the ini file is followed through reading and writing with the lemmas of C51. The refuted parts have witnesses.
* Limits: Proved for known codes. False: an object with an unknown code which has been computed before runs its old solver again, in the old directory, with the old transfer function and wave numbers; the code of the configuration is read only when the object is made (the call on a cosmology always makes a new one); a computation in the directory of the configurations overwrites the reference file. The theorem on CAMB assumes exact numbers, a sigma8 that goes with the root of the amplitude and is not 10 (the starting value of the loop).
* Theorems: `PowerEval.spectra_of_last`, `PowerEval.same_inputs`, `PowerEval.cosmology_spectrum`, `PowerEval.camb_spectrum`, `PowerEval.class_spectrum`, `PowerEval.tuned`, `PowerEval.computation_keeps`, `PowerEval.reference_kept`, `PowerEval.unknown_code`, `PowerEval.stale_transfer`, `PowerEval.unknown_code_runs`, `PowerEval.code_of_creation`, `PowerEval.reference_overwritten`, `PowerEval.class_rerun`, `PowerEval.camb_missing`

### C159 Power spectrum jobs can run at the same time, be stopped and be repeated (partial)

* Modelled: every access of a job to a file is a step, the ini file is written line by line, in `Model/PowerJobs`; the computations are those of `Model/PowerEval`.
* Proof: the steps of a job alone refine the computation at once, by induction over lines and rounds; a step depends only on the two files of its job and writes only one, so that a schedule can be projected to each job by induction. The refuted parts have witnesses.
* Limits: Proved for jobs in directories of their own other than that of the configurations, as the jobs of a run are. False otherwise: in a shared directory a job computes its spectra with the ini file of another one, and a job stopped in the directory of the configurations leaves a reference file which makes all later computations fail. A file is taken to hold what its last writer has written of it.
* Theorems: `PowerJobs.at_same_time`, `PowerJobs.ends_as_alone`, `PowerJobs.alone_ends`, `PowerJobs.references_kept`, `PowerJobs.other_files`, `PowerJobs.job_spectra`, `PowerJobs.same_directory_mixes`, `PowerJobs.stopped_in_config`

### C160 Spectra of displaced parameters are the same with power spectra computed on the way and read from files (partial)

* Modelled: the other branch of the loop over the steps and the job that writes the power spectra in `Model/ClDirect`, with the checks of the constructor of `Model/Background`.
* Proof: induction over the steps: each file that is read is what its job has written, a job has the parameters of the step, and a nuisance parameter leaves the cosmological ones. The refuted part has a witness.
* Limits: Proved for flat runs. False for others: without files the universe is always taken to be flat, and a step whose densities do not add up to one is refused, while the files give its spectra. Power spectra are a function of parameters and flatness.
* Theorems: `ClDirect.direct_as_files_partial`, `ClDirect.direct_steps`, `ClDirect.direct_refused`, `ClDirect.direct_not_as_files`

### C161 The written results of a collector belong together (partial)

* Modelled: the calls which write the files of all cosmologies, one after the other, in `Model/ResultsWrite`, with starts that are stopped after any file.
* Proof: induction over the calls, whose files are shown to be different, and over the starts of a history. The refuted parts hold for all results.
* Limits: Proved: when writing ends, what it leaves, and that tables and matrices are never replaced. False: tables that are there are left without an error, so that a directory can hold the errors of one start and the matrices of another (mixed); and a directory with a matrix is never completed (stuck). Plots are left out and files are written as a whole.
* Theorems: `ResWrite.write_ends_iff`, `ResWrite.written_partial`, `ResWrite.kept`, `ResWrite.stuck`, `ResWrite.mixed`

## Where the code does not do what the property says

Each item is proved by a theorem (named in brackets) with a concrete witness or an exact condition.

Keys and data vectors
* Malformed keys are accepted, and their equality is not symmetric (C04, C05).
* The empty data vector does not come back from its name (C07). Data vectors compare equal when one begins with the other (C08).
* `tuple_key_to_str_key` never returns the stored reversed key (C56).

Fisher matrices
* After fixing, selecting or adding a prior the cached inverse is kept, and old errors are reported (`stale_errors`).
* In-place marginalisation leaves a corrupted object when the second inversion raises (`marg_failure_corrupts`).
* The correlation matrix mixes up standard deviations after marginalisation (`correlation_after_marg`).
* Sums and files forget the nuisance flag (`add_forgets_flag`, `load_forgets_flag`). Different names can share a file (`file_name_collision`).
* An analysis changes its base matrices (`base_changed`). The order that was set is kept when the matrices change, and may repeat names (`order_stale`). A list of matrices given to the constructor is dropped (`list_dropped`). A failing file leaves a part of a directory loaded (`load_stops`), a missing directory leaves nothing (`load_no_directory`).
* Plots: ranges are means and cut the intervals of worse matrices (`range_cuts`), added matrices have no colour (`color_missing`), the default set up drops given ranges and settings (`given_ranges_dropped`), settings in a dictionary and plots of the collector of results always fail (`settings_dictionary_fails`, `results_plots_fail`), a text is taken for a list of letters (`text_is_letters`).
* The collector of results always fails with plots, which is the default (`plots_fail`), and refuses the JSON value true (`boolean_refused`).
* Tables: a loss is printed as `--5.00%` (`latex_loss`), a row without number of bins loses its first error (`latex_error_lost`), a failed replacement leaves a half replaced table (`hybrid_half_done`), unknown options of a query are ignored (`query_unknown_ignored`).
* Orchestration: the help text of `-rds` offers JSON lists and the program writes such lists, but they are taken for run directories (`json_list_not_read`); preparing the directory again resets `external_dirs.json` (`create_resets_external`); of two files in a one-file sub-directory the first in the order of the system is used (`one_file_by_order`), none is an exception (`one_file_missing`); a blank line of a list is the current directory (`blank_lines`); runs on existing directories need the configuration directory and the power spectra, which they do not use, and are launched even with execution `no` (`existing_needs`, `existing_launched_though_no`); `--input_data_dir` has no effect.
* Fisher task: a batch run leaves out the auto-correlations as soon as their file of tables exists. If it has fewer than three tables every later batch run fails (`batch_stuck`, `batch_can_get_stuck`); if it has all but a Fisher matrix is missing, batch runs succeed without it (`batch_incomplete`, `batch_can_be_incomplete`). A Fisher matrix cut off while written is skipped for ever and the task succeeds (`cut_off_skipped`, `cut_off_can_be_skipped`); a file of tables cut off makes it fail for ever (`cut_off_tables_stuck`). Only `overwrite_results` helps (`completes`).
* Configuration window: with the tab Void ticked the saved file cannot be read, since that tab has no field for the method of the bias derivatives (`void_never_loads`). The alignment parameters are saved with the probe `WL`, while the weight function looks for those of `Lensing`: with the box for intrinsic alignment ticked no lensing weight function can be computed (`alignment_missing`). `synthetic_opts` is saved empty (`synthetic_missing`), the boxes for external multipole files have no effect (`external_box_ignored`), displacements are saved unchecked (`displacements_unchecked`), and `a.json.b` gets no extension (`name_without_extension`).
* Multipoles that are not shared: the evaluator uses the full covariance at the multipoles that all probes of a data vector have, and adds the auto-correlations at the rest. Adding the auto-correlation of a probe with fewer multipoles to a data vector therefore drops the correlations between the other probes at the multipoles it lacks: the information can fall, 15 to 8 in `information_lost`. And it counts correlated auto-correlations as independent there: the information can rise although what is added depends on no parameter and is independent of the rest, 12 to 13.4 in `information_made_up`.
* Batch jobs of `run_seyfert`: paths are not quoted on the command line of the job. A space in the path of a forecast configuration makes the job fail or run two forecasts, of two other files, in one directory (`space_breaks_job`). A configuration whose name ends in `.txt`, given together with others, is one forecast for the program, but a list of configurations for the job (`text_becomes_list`). `--test_batch False` and `--is_batch_job False` turn the flags on (`false_is_true`).
* Jobs: paths are not quoted in the shell script of a job, so that in a run directory with a space no job runs (`space_stops_job`). A power spectrum or a file of spectra that is there already when its task is run again stays, also if the configuration beside it has been replaced by another one: saving to it raises, and the next task reads the old one (`old_results_kept`).
* Final results: in batch mode a run directory with a space in its path, a relative one beginning with a dash, or one ending in `.txt` beside others is not evaluated, or others are (`space_stops_results`, `dash_stops_results`, `txt_directory_is_list`). A json list of directories, announced in the help, is taken for a run directory (`json_list_is_directory`); a blank line in a text list is the current directory (`blank_line_is_here`). A forecast started with `--overwrite_results 1` removes the old final results and gets no new ones, as the program it calls refuses the value and its failure is not looked at (`number_removes_results`); the value `False` in the ini file removes the old results (`text_false_removes`).
* Equality of objects: an array of length one equals a longer constant one (`stretched_equal`), arrays which do not fit raise with recent numpy instead of being different (`misfit_raises`), an empty array equals `None` (`empty_equals_none`), attributes of the second object only are not looked at (`extra_attribute`), nor spectra of the second collection only (`extra_spectrum`), weight functions of different probes or without evaluation are equal (`probes_not_compared`), and the difference printed is that of a neighbouring attribute when one is excluded (`wrong_name_reported`).
* Independent probes: the Fisher matrix of two correlated probes and a third, uncorrelated one with fewer multipoles is not the sum; information is lost (`sum_rule_lost`) or made up (`sum_rule_made_up`) at the multipoles which the third does not have.
* Finding results: if the job of a parameter fails when it is run again, the derivatives of the earlier run are used for the Fisher matrices without notice (`stale_derivative`); after a change of the probes the file of the earlier run, which has another name, stops the computation (`other_name_stops`).
* Sessions (`Seyfert` objects): the densities file of a run directory is never written again, so that after a change of the configuration (`densities_stale`) or an interruption (`interrupted_densities`) every later session uses the old or incomplete one; preparing an object again keeps its cosmology and densities (`prepared_again_mixes`); `evaluateFiducialCosmology` takes the flatness from its argument, not from the configuration (`flat_not_read`); objects made without arguments share one dictionary (`defaults_shared`); `input_data_dir` as text fails after the files were copied (`text_data_fails`); with `powerspectrum_dir` the directory `PowerSpectrum` is not made, and CAMB can not write (`power_dir_not_linked`).
* Task configurations: `limber_spline_s` is cut off to a whole number (`smoothing_cut`); `config_for_task` accepts the file of another task (`other_task_accepted`); a grid of one redshift does not reach `z_max` (`one_point`). None of the settings of the Fisher configuration is read by the computations (`shot_noise_phsp_xc_factor`, `fisher_formula`, `cl_derivatives`), as the signatures of the models of the Fisher matrices show.
* External spectra: `convertSCameraDerivativesInput` raises for every input (`convert_raises`): `H5Cl` asks a spectrum without kernel for its weight functions; the message about different numbers of multipoles can not be made (`convert_counts`); which of two files counts depends on the listing (`order_matters`, `ders_order`); multipoles are not compared (`multipoles_accepted`, `ders_multipoles`).
* Comparison of runs: a run with derivatives is never loaded, since `c_ells.cl_key_long_to_short` does not exist (`derivatives_stop`); `fisher_matrices` and `results` are read where the program writes `base_fishers` and `final_results` (`other_directories`, `own_runs_stop`); background, spectra and derivatives are never tested (`only_matrices_tested`, `spectra_not_tested`); derivatives of spectra in only one run give no warning (`derivatives_unwarned`); negative entries always pass (`negative_entries_pass`). The descriptions of the two runs are a dictionary after loading the runs and a list after loading a saved comparison (`saved_and_loaded`).
* Files of earlier versions: the writer of old cosmologies writes neither Hubble function nor distance, so the reader refuses each of its files (`old_unreadable`). Cosmologies before 1.1.0 have no parameters after reading, so `h`, `H_z` and `r_z` raise an `AttributeError`, and their growth is read and dropped (`read104_lost`). `load_power_spectrum` has no effect before 1.1.1 (`power_asked`). Spectra read from old files call themselves `None_None` (`old_key`) and cannot be saved (`old_not_saved`).
* Texts in TeX: names of parameters are translated only between two blanks, and a blank serves one name only. So a name alone or at an end of the text stays as it is (`alone_missed`), and of two names with one blank between them the second does (`second_missed`). In `XCl` both `Cl` and `XC` are replaced, which share a letter (`shared_letter`). In tables `+0.00\%` becomes a dash, but `-0.00\%` is marked as a loss (`zero_loss`).
* Small programs: `kill_job_submitter` finds no run of a user whose name has more than eight characters or others than letters (`long_names_spared`), ends editors of files named like the submitter (`editor_stopped`), and no runs by `run_seyfert` (`interactive_spared`). `report_batch_jobs` reports success if nothing has been written (`waiting_unnoticed`) and for a failure after a success in one log (`later_failure_hidden`). `run_integ_test` passes over unknown versions (`unknown_versions`) and reads the name of the branch up to the first character which is no small letter, so that from `feature-x` it does not return (`branch_lost`, `branch_changed`, `second_fails`).
* Helpers which load runs: given a directory, the scenario asked for is ignored (`scenario_unused`, `scenario_wrong`), and one of two runs with the same number of bins is lost (`same_bins`). After the replacement of the matrices with the three-dimensional spectrum the analyses share them, so that fixing a parameter in one changes the others (`changes_shared`, `four_bins_changed`); a missing matrix leaves the replacement half done (`replaced_half`).
* `create_h5density`: a density given bin by bin is written without surface densities and stops every forecast with a `TypeError` (`niz_unusable`); a run refused because the file is there has already replaced the probe named in it (`renamed`); a sky fraction that evaluates to no number leaves a file which no later run can complete (`half_written`, `never_again`).
* `build_tables`: `drop_duplicates` does not compare the index, so rows of another matrix or number of bins with equal numbers are lost, with them the gains of all other bins when the reference does not depend on the bins (`gains_one_bin`), or the table (`twin_lost`); the LaTeX table of a plain index declares one column too few (`latex_columns`); the widths in the sheet are shifted by the index (`excel_widths`).
* Contour plots: the helpers need the columns `run_id` and `n_bins`, which collections of the present version do not have (`collected_never`, `bins_never`); ranges are written also with `write_ranges=False`, to a file that plots of other parameters use too (`ranges_shared`); plots of other scenarios replace each other (`plots_shared`); the helper that removes spaces from names never finds a sum of matrices (`spaced_never`).
* Collecting results: if the analyses cannot be loaded, new tables of errors stand beside the analyses of an earlier collection, and the collection is half replaced (`tables_beside_old`, `failed_at`).
* Options: an input directory or configuration whose name has digits only is made a number by the command line and then refused as a path (`number_refused`); options with names of dictionary methods cannot be read as attributes (`method_hides`; no present option is called so, `path_options`).
* Final results with overwriting keep the matrices of earlier runs that are not written again, which are then read with the new ones but have no rows in the tables (`stale`, `exactly_iff`); without overwriting, tables that are there are kept beside matrices they do not belong to (`tables_kept`), and results of which one matrix was begun are never completed (`never_completed`).
* C155: the external matrix is written without overwriting, so a forecast that was stopped after it is never completed by starting it again (`direct_refused`, `tasks_refused`). The two programs use different names for its file, so that both can be there, of different scenarios (`scenarios_mixed`). For a scenario other than the two shipped ones everything is computed before the program raises, and with `overwrite_results` the old results are gone then (`no_external`). A forecast by tasks does not notice that its final results were not written (`tasks_silent`).
* C156: for a difference of matrices the treatment that is meant to be the most cautious, marginalising before, reports smaller errors than marginalising after (`difference_reversed`, strictly in `order_fails_for_differences`).
* C158: a power spectrum object with an unknown code which has been computed before runs its old solver again: into the old directory, with new spectra beside the transfer function and wave numbers of the old parameters (`unknown_code`, `stale_transfer`, `unknown_code_runs`). It keeps the code its configuration had when it was made (`code_of_creation`). Computing in the directory of the configurations overwrites the reference file (`reference_overwritten`).
* C159: two computations with CAMB in the same directory share the ini file, and one can take its spectra from the parameters of the other (`same_directory_mixes`). One that is stopped in the directory of the configurations leaves a reference file without an amplitude, and later computations raise KeyError (`stopped_in_config`).
* C160: the computation of displaced spectra without files takes every universe to be flat (`flat=True` in `cl_core.py` L93), so that in a run which is not flat it raises CosmologyError where the files give the spectra (`direct_not_as_files`).
* C161: `writeResultsAndDoPlots` leaves tables of errors that are already there (only a warning is logged) but refuses matrices. After a stop between tables and matrices, a start with other results ends with the errors of the first and the matrices of the second (`mixed`). After a stop behind the first matrix, no later start writes the missing files (`stuck`).
* Comparing matrices with different parameters raises, equality ignores the kind of parameters, the consistency check accepts permuted columns (`fisher_equality_partial`, `equal_but_different`, `check_accepts_permuted`).

Covariance and multipoles
* A correlation listed twice makes the covariance singular (`covariance_repeated`). One common multipole only is refused (`fisher_refused`). A single cross-correlation needs the tables of the auto-correlations (`fisher_needs_tables`).
* Shot noise is evaluated once and kept (`evaluate_again`). Linear binning overshoots a range that is not an integer (`lin_overshoot`).

Parameters and derivatives
* A constant bias with more than ten bins is permuted by saving and reading (`constant_reload_wrong`). Values without a grid are lost in the file of a bias (`values_lost`). The edges in the file of a bias replace those of the run (`load_into`).
* A refused density update leaves the rejected value (`refused_update_changes`). A failed write destroys the parameter file (`failed_write_destroys`). Descriptions, zero displacements and probes of cosmological parameters are lost in files (C23).
* The vectorised SteM depends on the sign of the data (`vectorized_sign_dependent`, `negative_never_trimmed`) and differs from the scalar one (`versions_differ`).
* Analytic derivatives are wrong from bin ten on (`wrong_bin`). Steps from ten on are misread (`large_step_misread`), so spectra and values are misaligned (`misaligned`).
* A cosmology file with other parameter values than asked for is used with a message in the log only (`load_inconsistent`). Derivatives in one process need exactly seven displacements (`mem_needs_seven`) and do not look at the method of the parameter.

Runs and files
* The batch wait returns early (`returns_early`, `returns_at_timeout`, `other_users_ignored`) or waits for a host number (`host_number_is_a_job`).
* Interrupted writes make every later start fail in several places (`derivatives_interrupted_fatal`, `first_write_fatal`, `stuck_forever`), and so does starting a finished run again (`finished_again_fails`).
* External power spectra replace those of every combination (`external_replaces`); collection of directories takes older ones and misses others (`older_collected`, `zeros_missed`); run ids can clash (`ids_clash`); values with spaces are split (`space_splits`).
* Additional patterns replace the run-name patterns (`unrecognised_selected`, `pattern_replaces`), linked directories are treated differently (`link_selected`). A failed HDF5 save leaves mixed content (`failed_save_mixes`).
* Files lose tables of densities that they were not made from (`dens_back`), values of weight functions without redshifts (`weight_back`) and weight functions of probes without spectra (`weights_lost`). A second collection in a file gets the weight functions of the first (`second_collection`, `weights_first`). Spectra without kernel cannot be saved, and leave arrays in the file that cannot be loaded as a collection (`cl_no_kernel`, `cl_no_kernel_left`, `load_no_kernel`). Loading into a weight function fails (`weight_into`). Equality of collections is not symmetric and ignores kernels (`eq_asymmetric`, `eq_iff`). Covariances without single ones cannot be loaded (`delta_alone`).
* A cosmology without parameters (`cosmo_no_pars`) or with a displaced density in a flat universe (`moved_not_read`) is saved and cannot be read; one saved without power spectrum fails the default reading (`cosmo_no_power`). Loading into an existing cosmology mixes its parameters and model with the arrays of the file (`load_keeps`, `load_mixes`, `load_model`). A cosmology with power spectrum cannot be compared with one without (`compare_raises`). A refused save leaves the group behind (`cosmo_incomplete_leaves`).
* Ini values with an equals sign and some names are misread (`value_with_equals`, `unreadable_lost`).

* Input files with one name overwrite each other (`inputs_collide`); a failed set-up mixes old and new ones (`inputs_mixed`); repeating a failed linking loses a link (`link_delta_lost`); the option for external power spectra is ignored (`power_dir_ignored`).
* A dry run computes densities (`dry_run_computes`); the report is never written (`report_never`); failing silently counts as success and a warning as failure (`silent_failure`, `warning_is_failure`).
* Varied spectra from step ten on are left (`cleanup_leaves`); test mode empties a directory (`rundir_test_destroys`); durations lose whole days (`duration_wraps`); forecasts of a batch job share a directory (`forecast_dirs_shared`); requested memory is ignored (`fisher_memory_fixed`).
* `False` in the ini file counts as true (`ini_false_is_true`), cores cannot be given there (`ini_cores_refused`), identifiers of digits are changed (`run_id_changed`). Continued runs use configurations that are not recorded (`resumed_config_differs`). Seven displacements are wired in (`too_few_displacements`, `too_many_displacements`, `failed_step_stays`).
* Submitted jobs without a time share logs (`logs_shared`), and submission fails after running the command if no number is printed (`submit_no_answer`). The table of resources needs years 2020 or 2021 and all numbers (`no_table`, `no_table_number`) and loses days (`duration_drops_days`).
* The report does not see the logs of jobs that the program submits (`submitted_not_seen`), depends on the order of listing (`job_status_order_false`), calls an empty run successful (`empty_run_success`), calls half done runs undefined (`half_done_undefined`), fails for a task without jobs (`empty_task_fails`) and for a missing log of errors (`missing_err_fails`). Times of reruns are wrong (`execution_time_rerun_false`) and jobs are sorted as text (`jobs_sorted_false`).

Configuration and utilities
* Configuration equality ignores sky fraction and displacements (`sky_ignored`), a zero sky fraction is not equal to itself (`forecastEq_self`), parameter equality ignores four fields (`par_equal_but_different`), arrays of length one are broadcast (`arrEq_broadcast`).
* The editor depends on its history (`history_matters`) and refuses late (`refused_late`). The cross-correlation flag depends on the order for contradictory tables (`flag_order_matters`). A missing probe file is not reported (`initFile_missing`).
* TeX: unknown names give an empty text (`unknown_silent`), bias names collide (`bias_collision`), single probes are not translated back (`single_never_back`), one combination is renamed (`combination_renamed`).
* Milliseconds can be 1000 (`ms_reach_1000`). Percentage differences of tables can be negative (`padTab_negative`) or miss opposite entries (`padArr_opposite`).
* Newton-Cotes remainders use a lower order (`remainder_inexact`), non-uniform grids give wrong integrals (`nonuniform_inexact`).

Cosmology
* Constant bias values are taken in storage order (`constant_order_matters`). Weights and kernels are not evaluated again on another grid (`stale_weights`, `evaluated_kept`).
* The curvature given to CLASS is rounded (`class_not_closed`). A requested sigma8 of 10 skips the tuning (`tune_skipped`).

External input
* A displacement written with one more digit counts as fiducial (`misread_as_fiducial`); redshifts listed upwards are exchanged (`readTable_upwards`); surplus parameters raise although they should be removed (`checkPars_iff`).
* Headers without separators or with other digits are misread, possibly without notice (`compact_misread`, `stray_digit_misread`); one column is spread over all pairs (`readRow_length`).
* Names of columns can fall together (`newName_collision`), and pessimistic files are refused (`pessimistic_refused`).
* More than ten photometric bins, or parameters of intrinsic alignment, make the change to `b*sigma8` fail (`many_bins_refused`, `alignment_refused`); a second file of the same code replaces the first in silence (`file_dropped`).
* Fiducial spectra are not compared (`fiducial_not_loaded`); versions are misread (`version_of_name`, `dev_refused`, `major_misread`, `minor_refused`, `prerelease_older`); comparing two runs always ends with an exception (`comparison_fails`); differences below the diagonal are not shown (`difference_unseen`).
* Stored results are looked for under names that are not written (`load_refused`), correlations under a part of the name (`corr_refused`).
* Collected options in another order or number get into wrong columns (`analyses_misplaced`, `analyses_shifted`), or replace errors (`option_overwrites`); selection by texts fails (`query_text`); replaced matrices keep old relative errors (`relative_stale`), and a failed replacement blocks the collector (`replace_stuck`).
* Results of another configuration in the run directory are used without notice (`stored_reused`).

Reading of configurations
* Parameters of the same name replace each other in silence (`collision_loses`, `extra_replaces_cosmological`); an extra parameter may belong to another probe, even one switched off (`extra_other_probe`).
* An entry under the long name of a probe is refused, or the one under the alias is read in its place (`long_name_entry`). Reading a second file keeps the probes of the first (`stale_probe`).
* The bin widths of a cross-correlation are those of the first probe (`common_asymmetric`); if the multipoles read from a file do not increase, they belong to other multipoles (`common_unsorted`) or their number differs (`common_repeated`).
* A file of shot noise given when the Fisher matrices are computed leaves the joint matrices of the collection as they were (`joint_stale`); the Fisher matrices do not use them.

Physics
* Parameters that add up to one only to ten decimals count as flat (`accepted_not_flat`); parameters are accepted for which the Hubble parameter is not a number (`hubble_undefined`).
* The growth taken from the power spectrum is one at the first redshift of the grid instead of today (`growth_not_one_today`). The growth index gamma has no effect: the growth computed with it is used nowhere, and rescaling by the stored growth changes nothing (`rescale_own`).
* Evaluated background functions and densities survive a change of parameters or grid (`background_stale`, `density_stale`).
* Distributions given per bin are not normalised (`given_not_normalised`). A bin without galaxies silently gives values that are not numbers: the exception that the code catches is never raised (`normalised_spec`).
* Simpson's rule can give a negative integral of a positive function on an uneven grid (`simps_negative`). The lensing efficiency at one redshift always fails with Simpson's rule (`efficiencyCall_iff`).
* Leaving out spectra between spectroscopic bins but not those with other probes gives spectra that no random fields can have (`skipping_breaks`).

## Axioms of each theorem

* No axioms: `Background.background_stale`, `Background.evaluate_fresh`, `BiasFile.load_into`, `Contour.grid_legend`, `Keys.tuple_lookup`, `PyDict.mapNested_comp`, `Runner.dry_run_computes`, `Runner.dry_run_partial`, `Runner.report_never`, `Weights.density_fresh_partial`, `Weights.density_stale`.
* Only propext: `Args.refused_iff`, `BTab.excel_kept`, `BTab.excel_widths`, `Background.evaluate_fails`, `Config.combos_length`, `Config.par_equal_but_different`, `CosmoFile.compare_raises`, `CosmoFile.power_code_not_compared`, `CosmoFile.power_eq_iff`, `Ells.inter_empty`, `Keys.tuple_lookup_reversed`, `Plot.panels`, `PyDict.mapNested_spec`, `PyDict.wrapper_error_unchanged`, `PyDict.wrapper_errors`, `Redshift.constant_values_partial`, `Redshift.overlap_none`, `Redshift.overlap_refused`, `Redshift.overlap_some`, `Redshift.overlap_symm`, `Redshift.overlaps_partition`, `Report.host_char`, `Resume.finished_kept`, `Resume.stored_reused`, `Scen.analyses_ok`, `Sess.cls_needs`.
* Only propext, Quot.sound: `BTab.latex_columns`, `Boltzmann.tune_converged`, `ClDer.stack_ragged`, `Collector.query_empty`, `Collector.subset_analysis`, `Combos.listed_twice`, `Combos.shipped_form`, `Compare.contains_iff`, `Compare.glob_iff`, `Compare.reader_letter`, `Compare.report_spec`, `Config.arrEq_broadcast`, `Contour.colours_enough`, `Contour.pair_legends`, `Contour.slice_iff`, `Contour.spaced_never`, `CosmoFile.compare_arrays`, `Ext.pairs_found`, `Ext.pairs_found_decimal`, `Ext.readRow_cross`, `Ext.readRow_length`, `FLoad.cross_common`, `Fisher.prior_zero`, `Fisher.relErr_some_iff`, `Fisher.splitOps_text`, `Fisher.text_injective`, `Inputs.compute_blocks`, `Inputs.prepare_blocks`, `Inputs.prepare_missing`, `Inputs.prepare_none`, `Job.inTurn_complete`, `Kernel.crossCl_transpose`, `Kernel.crossCl_value`, `Kernel.evaluated_kept`, `Kernel.fresh_kernel_partial`, `Kernel.kernel_symmetric`, `Kernel.kernel_transpose`, `Kernel.stale_weights`, `Linalg.enumeration_map_error`, `Linalg.triangle_indices`, `Names.derivativeJobs_spec`, `Numeric.padArr_opposite`, `Orch.collect_iff`, `Orch.ids_differ_partial`, `OrchIn.copies_from_tree`, `Param.freeForProbe_spec`, `Param.reset_fiducials`, `Param.valueFor_spec`, `Plot.drawn_spec`, `Plot.ranges_written`, `PyDict.subset_spec`, `PyDict.wrapper_keys_distinct`, `Redshift.biasIndex_name`, `Redshift.noise_matrix_refused`, `Redshift.noise_matrix_spec`, `Redshift.piecewise_number`, `Report.half_done_undefined`, `Report.run_status`, `Runner.fisher_memory_fixed`, `Runner.job_memory`, `Runner.jobs_exact`, `Runner.results_last`, `Runner.run_dependencies`, `Runner.run_exact`, `Runner.run_once`, `Runner.rundir_new`, `Runner.rundir_refused`, `Runner.rundir_test_destroys`, `Runner.silent_failure`, `Runner.warning_is_failure`, `SCam.lastOf_single`, `Same.reported_right_partial`, `Stored.eq_asymmetric`, `Stored.eq_iff`, `Submit.duration_drops_days`, `Submit.duration_partial`, `Submit.seconds_clock`, `Tables.select_refused`, `Weights.lookups_mem`, `Weights.lookups_some`.
* `propext`, `Classical.choice` and `Quot.sound`: all other theorems listed above (1185).
