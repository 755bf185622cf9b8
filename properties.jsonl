{"id": "C01", "title": "Enumeration map agrees with the vectorisation order", "statement": "For a tomographic block of any shape, get_enumeration_map assigns to every bin pair (i,j) exactly the position at which vec (cross-correlation) or vecp (auto-correlation) puts the (i,j) entry; the positions are pairwise distinct and cover 0..N-1 without holes. Asking for the symmetric map of a non-square shape raises.", "quantifier": "every shape (n_i, n_j), every matrix entry type and value, every index pair", "why_tests_cant": "tests draw a few random shapes; a covariance row that is out of step with the derivative vector for one shape silently corrupts the Fisher matrix", "anchors": ["seyfert/fisher/linalg_tools.py:get_enumeration_map,vec,vecp", "seyfert/fisher/fisher_evaluator.py:computeCovBlock,buildVectorizedClDerivatives"]}
{"id": "C02", "title": "Matrix vectorisation round trips", "statement": "unvecp(vecp(A)) == A for every symmetric A, vecp(unvecp(v)) == v for every v of triangular length, unvec(vec(A)) == A for every square A and vec(unvec(v)) == v for every v of square length; vectors of other lengths are rejected.", "quantifier": "all sizes and all entries in a field", "why_tests_cant": "tests check twenty random sizes with random floats", "anchors": ["seyfert/fisher/linalg_tools.py:vec,unvec,vecp,unvecp"]}
{"id": "C03", "title": "Duplication, elimination and commutation matrices", "statement": "For every size: D vecp(A) = vec(A) for symmetric A, L vec(A) = vecp(A), L D = identity, and K(p,q) vec(A) = vec(A^T) for every p by q matrix A; K(q,p) K(p,q) = identity.", "quantifier": "all sizes n, p, q and all matrices over a field", "why_tests_cant": "the identities must hold for all sizes, tests sample sizes up to 60", "anchors": ["seyfert/fisher/linalg_tools.py:duplication_matrix,elimination_matrix,commutation_matrix"]}
{"id": "C04", "title": "Correlation key conversions round trip and preserve meaning", "statement": "Converting a valid probe-pair key between long, short and alias notation and back returns the same key; the pair of probes it denotes and its order never change; reversing twice is the identity and reversing commutes with conversion; the kind of a valid key is inferred unambiguously; strings that name no known probe pair are rejected.", "quantifier": "all keys accepted by the constructor, all pairs of notations", "why_tests_cant": "the key space accepted by the constructor is infinite because its regular expressions only anchor at the start; tests only iterate the documented 16 keys", "anchors": ["seyfert/utils/shortcuts.py:ClKey", "seyfert/__init__.py"]}
{"id": "C05", "title": "Key equality is an equivalence relation consistent with hashing", "statement": "Key equality is reflexive, symmetric and transitive across notations, equal keys have equal hashes, and a key compared with a non-key is unequal; so dictionaries indexed by keys find an entry whatever notation is used.", "quantifier": "all pairs and triples of constructible keys", "why_tests_cant": "needs all triples of keys; notation mixing is exercised by tests only for pairs produced by conversion", "anchors": ["seyfert/utils/shortcuts.py:ClKey.__eq__,__hash__,equivalentTo"]}
{"id": "C06", "title": "Spectrum lookup is independent of stored orientation", "statement": "Looking up the spectrum of probes (a,b) in a spectra container returns the stored block when (a,b) is stored, the per-multipole transpose when only (b,a) is stored, and raises KeyError when neither is; looking up with reversed arguments always gives the transposed answer for containers that hold each pair in one orientation; multipole containers return the same array for both orientations. Notation of the key does not matter.", "quantifier": "all container contents, all keys, all array shapes", "why_tests_cant": "depends on every combination of stored orientation and request orientation, and on arbitrary contents", "anchors": ["seyfert/base_structs/cl_dict.py:FlexDict.__getitem__,ClDict,TupleSmartDict,ClSmartDict", "seyfert/utils/shortcuts.py:SmartKeyDict,ClSmartKeyDict"]}
{"id": "C07", "title": "Data vector names and strings round trip", "statement": "For every list of probe-pair keys, building the data vector from its own name, from its brief string or from its full string gives back the same list in the same order; different data vectors have different names.", "quantifier": "all finite lists of probe-pair keys", "why_tests_cant": "the set of data vectors is infinite; tests iterate a fixed file of 63 vectors", "anchors": ["seyfert/fisher/datavector.py:ClDataVector.fromName,fromBriefString,fromString,toString,toBriefString,getNameFromEntries", "seyfert/utils/shortcuts.py:fromFisherStringRepr,toFisherStringRepr"]}
{"id": "C08", "title": "Data vector equality", "statement": "Two data vectors compare equal exactly when they list the same correlations in the same order.", "quantifier": "all pairs of data vectors", "why_tests_cant": "needs pairs of unequal lengths; tests only compare a vector with itself", "anchors": ["seyfert/fisher/datavector.py:ClDataVector.__eq__"]}
{"id": "C09", "title": "Fisher matrix addition and subtraction", "statement": "The sum (difference) of two Fisher matrices has as parameters the union of both parameter sets, and its entry (a,b) is the sum (difference) of the operands' entries with absent parameters contributing zero, whatever the row order of the operands; nuisance sets and cosmological sets are united; addition is commutative and associative on entries and F - F is zero; the operands are not modified.", "quantifier": "all pairs and triples of Fisher matrices with arbitrary parameter lists and values", "why_tests_cant": "depends on arbitrary overlaps and orders of the two index lists", "anchors": ["seyfert/fisher/fisher_matrix.py:FisherMatrix.__add__,__sub__,zeroPadMatrices"]}
{"id": "C10", "title": "Marginalisation removes exactly the requested parameters", "statement": "Marginalising a parameter set out of an invertible Fisher matrix yields the matrix whose inverse is the original inverse restricted to the kept parameters, so the marginalised errors of the kept parameters are unchanged; marginalising A and then B equals marginalising A and B at once; asking for an unknown parameter raises and leaves the object as it was; the copy-returning form does not modify the receiver.", "quantifier": "all invertible matrices with any labels, all subsets, all orders", "why_tests_cant": "the claim ranges over all matrices, all subsets and all orders; float tests check a handful with tolerances", "anchors": ["seyfert/fisher/fisher_matrix.py:FisherMatrix.marginalizeParameters,marginalizeNuisance"]}
{"id": "C11", "title": "Fixing parameters", "statement": "Fixing a set of parameters deletes exactly their rows and columns and keeps every other entry; fixing A then B equals fixing the union; fixing commutes with addition of Fisher matrices when the set is present in both; on disjoint sets, fixing and marginalising commute only in the direction the linear algebra allows.", "quantifier": "all matrices, labels and subsets", "why_tests_cant": "ranges over all subsets and orders", "anchors": ["seyfert/fisher/fisher_matrix.py:FisherMatrix.fixParameters,selectRelevantFisherSubMatrix"]}
{"id": "C12", "title": "Reported errors describe the current matrix", "statement": "At any point of any sequence of operations on a Fisher matrix (fix, marginalise, add prior, select submatrix, evaluate inverse, evaluate correlation), the marginalised errors reported next are those of the current matrix.", "quantifier": "all finite sequences of operations on a FisherMatrix object", "why_tests_cant": "the failure needs a particular history: errors evaluated, then the matrix changed, then errors evaluated again", "anchors": ["seyfert/fisher/fisher_matrix.py:FisherMatrix.getMarginalizedErrors,fixParameters,addPriorToParameters,evaluateInverse,selectRelevantFisherSubMatrix"]}
{"id": "C13", "title": "A posteriori combinations evaluate the written formula", "statement": "A combination written as operands separated by ' + ' and ' - ' is evaluated left to right on the named matrices; if any operand is missing nothing is added; matrices already present are not modified; a combination whose operand is an earlier combination sees that result.", "quantifier": "all formulas of any length over any set of matrices", "why_tests_cant": "the formula file is fixed in tests; arbitrary lengths and missing operands are not sampled", "anchors": ["seyfert/fisher/final_results_core.py:_compute_a_posteriori_fisher_comb_from_name,evaluate_a_posteriori_fisher_combinations"]}
{"id": "C14", "title": "An analysis never changes the matrices it was given", "statement": "Marginalising or otherwise preparing the matrices of an analysis leaves its base matrices as they were loaded, so the same base set can be analysed again with another configuration.", "quantifier": "all sequences of analysis operations on any base set", "why_tests_cant": "depends on object sharing along a history of calls", "anchors": ["seyfert/fisher/fisher_analysis.py:FisherAnalysis.useBaseFishers,evaluateFishersFromAddendsList,marginalizeFishers,getSubsetAnalysis"]}
{"id": "C15", "title": "Covariance block formula and symmetry", "statement": "At each multipole the covariance entry between spectra (A_i B_j) and (C_k D_m) is (dC_AC,ik dC_BD,jm + dC_AD,im dC_BC,jk)/(2l+1), and the assembled covariance matrix is symmetric for every data vector and equals this formula in every block, including the blocks the code obtains by transposing.", "quantifier": "all data vectors, all spectra, all multipoles, all bin indices", "why_tests_cant": "ranges over all data vectors and shapes; transposed blocks are computed by a different branch", "anchors": ["seyfert/fisher/fisher_evaluator.py:ClCovarianceMatrix.computeCovBlock,evaluateAllBlocks,buildMatrix", "seyfert/fisher/delta_cl.py"]}
{"id": "C16", "title": "Fisher matrix of a data vector is symmetric and additive over multipoles", "statement": "The Fisher matrix produced for any data vector is symmetric, equals the sum over multipoles of d_a^T Cov^-1 d_b, is positive semidefinite whenever each inverse covariance is, and its labels are the free parameters in one fixed order.", "quantifier": "all data vectors, derivative vectors and inverse covariances", "why_tests_cant": "symmetry is obtained by filling one triangle; holds for all inputs only if every pair is filled once", "anchors": ["seyfert/fisher/fisher_evaluator.py:FisherEvaluator.computeFisherOfMultipole,sumFisherOverMultipoles,selectFreeParameters"]}
{"id": "C17", "title": "Every multipole of an auto-correlation is counted exactly once", "statement": "For a data vector with several spectra, multipoles common to all enter through the joint covariance; multipoles that an involved auto-correlation has in addition are added from its own per-multipole Fisher matrices, each exactly once, and none of the common ones is added twice; without the stored auto-correlation contributions the computation is refused.", "quantifier": "all multipole sets of all involved probes", "why_tests_cant": "depends on arbitrary overlaps of multipole grids", "anchors": ["seyfert/fisher/fisher_evaluator.py:FisherEvaluator.computeFisherMatrix,addInvolvedProbesContribution,mask_cl_blocks_to_common_ells", "seyfert/utils/array_utils.py:compute_arrays_intersection1d"]}
{"id": "C18", "title": "Multipole set operations", "statement": "The intersection of any nonempty list of multipole grids contains exactly the multipoles present in every grid, sorted without repetition when there are at least two grids; the union contains exactly those present in some grid; the result does not depend on the order of the grids.", "quantifier": "all finite lists of finite arrays", "why_tests_cant": "arbitrary lists; the test only prints a result", "anchors": ["seyfert/utils/array_utils.py:compute_arrays_intersection1d,compute_arrays_union1d"]}
{"id": "C19", "title": "Linear multipole binning partitions the requested range", "statement": "Linear binning over [l_min, l_max) gives l_max - l_min unit-width bins whose edges are consecutive, whose centres are the midpoints and whose union is the requested range without gap or overlap; l_min >= l_max, an unknown spacing, and logarithmic spacing without a number of bins are rejected; logarithmic bins have n_ell bins with consecutive edges whose widths add up to the whole range.", "quantifier": "all integer ranges and all numbers of bins", "why_tests_cant": "tests use one range", "anchors": ["seyfert/utils/array_utils.py:compute_multipoles_arrays"]}
{"id": "C20", "title": "Flat cosmologies stay flat", "statement": "In a flat model, after any sequence of successful parameter updates and resets Omega_m + Omega_DE = 1 holds for the current values, at most the varied parameter and its partner differ from their fiducials after an update that followed a reset, and a reset restores every fiducial value.", "quantifier": "all sequences of updates and resets from any consistent starting collection", "why_tests_cant": "history dependent", "anchors": ["seyfert/cosmology/parameter.py:PhysicalParametersCollection.updatePhysicalParametersForDvarStep,resetPhysicalParametersToFiducial"]}
{"id": "C21", "title": "A rejected parameter update changes nothing", "statement": "When a parameter update is refused (unknown parameter, parameter that is not free, flatness that cannot be preserved) the current values are as before the call.", "quantifier": "all collections, all update requests", "why_tests_cant": "the failing path must be checked for every collection and request", "anchors": ["seyfert/cosmology/parameter.py:updatePhysicalParametersForDvarStep"]}
{"id": "C22", "title": "Finite-difference steps", "statement": "Loading n positive displacements gives 2n displacements symmetric about zero, in strictly increasing order, numbered -n..-1, 1..n, so that the step number order is the displacement order; the table of parameter values lists the fiducial in the middle and every value at the position of its step.", "quantifier": "all lists of positive displacements, all fiducials and scale factors", "why_tests_cant": "needs all lists; a misalignment between steps and values would change every derivative", "anchors": ["seyfert/cosmology/parameter.py:loadStemDisplacements,computeSteMValues,computeValueForDisplacement"]}
{"id": "C23", "title": "Parameter file round trip", "statement": "Writing a parameter collection to JSON and reading it back preserves every parameter and every finite-difference step.", "quantifier": "all collections", "why_tests_cant": "all combinations of optional fields", "anchors": ["seyfert/cosmology/parameter.py:writeJSON,readJSON,to_dict,from_dict,from_dict_list"]}
{"id": "C24", "title": "SteM derivative is exact on straight lines and always terminates", "statement": "The SteM derivative terminates on every data set; when the spectra depend linearly on the parameter it returns the slope exactly without discarding points, elementwise for arrays; it never keeps fewer than the minimum number of points and always discards symmetrically.", "quantifier": "all parameter grids and all data", "why_tests_cant": "termination and exactness for all inputs", "anchors": ["seyfert/derivatives/differentiator.py:STEM_derivative,vectorizedSteM"]}
{"id": "C25", "title": "SteM derivative does not depend on the sign of the data", "statement": "The derivative of the negated spectrum is the negated derivative.", "quantifier": "all data sets", "why_tests_cant": "the linearity check divides by the signed data, so the failing inputs are negative spectra (cross-correlations) that are not linear; tests use positive data", "anchors": ["seyfert/derivatives/differentiator.py:vectorizedSteM,STEM_derivative"]}
{"id": "C26", "title": "Analytic derivative with respect to a bias parameter", "statement": "The analytic derivative with respect to the bias of bin k equals the true derivative of the bias-product model of the spectrum for every bin number.", "quantifier": "all numbers of bins and all bin indices", "why_tests_cant": "fails only for bin numbers with more than one digit, which default tests do not use", "anchors": ["seyfert/derivatives/differentiator.py:AnalyticClDifferentiator"]}
{"id": "C27", "title": "Job directory names identify the variation", "statement": "The name of a power-spectrum job directory parses back to the parameter and signed step it was built from, hence different variations use different directories.", "quantifier": "all parameter names and all steps", "why_tests_cant": "unbounded steps and names", "anchors": ["seyfert/utils/filesystem_utils.py:get_cosmology_jobdir_name,get_dvar_step_from_cosmology_jobdir_name", "seyfert/utils/workspace.py"]}
{"id": "C28", "title": "Job sets cover each variation exactly once", "statement": "The power-spectrum task creates one directory for the central cosmology and one for every free cosmological finite-difference parameter and step; the angular task one for every free finite-difference parameter and step; the derivative task one for every free parameter; none twice.", "quantifier": "all parameter collections and all step tables", "why_tests_cant": "arbitrary collections", "anchors": ["seyfert/main/task_runners.py:PowerSpectrumTaskRunner,AngularTaskRunner,DerivativeTaskRunner", "seyfert/cosmology/parameter.py"]}
{"id": "C29", "title": "Result files are never silently overwritten", "statement": "Writing a Fisher matrix to a path that exists raises unless overwriting was requested, and then no file content changes; a request without outfile and outdir raises; an existing result table keeps its content unless overwriting was requested; what is loaded from a written file is what was written.", "quantifier": "all file system states and argument combinations", "why_tests_cant": "all combinations of arguments and prior state", "anchors": ["seyfert/fisher/fisher_matrix.py:writeToFile,loadFromFile,getFilename", "seyfert/utils/table_utils.py:write_dataframe_table"]}
{"id": "C30", "title": "Waiting for batch jobs", "statement": "If waiting for a set of batch jobs returns normally then every submitted job is done; if some listed job has exited with an error the wait raises.", "quantifier": "all sequences of scheduler answers and clock readings", "why_tests_cant": "schedules are unbounded: answers that omit jobs, empty answers, timeouts", "anchors": ["seyfert/main/bsub_utils.py:BsubInterface.waitForJobsToComplete"]}
{"id": "C31", "title": "A forecast can be resumed after a crash", "statement": "If a run is interrupted at any point, running it again with the same arguments completes and gives the same results as an uninterrupted run; finished Fisher matrices are neither recomputed nor overwritten.", "quantifier": "all crash points and all numbers of crashes", "why_tests_cant": "every crash point", "anchors": ["seyfert/main/seyfert_core.py:compute_cl_derivatives,compute_densities,compute_fiducial_cls,compute_fishers", "seyfert/main/fisher_core.py:compute_and_save_fishers"]}
{"id": "C32", "title": "Multi-run orchestration", "statement": "Orchestrating over lists of configurations launches exactly one run per combination, in a fixed nesting order, with forecast configurations ordered by number of spectroscopic bins when all declare one; the directories collected afterwards are exactly those of the launched runs.", "quantifier": "all lists of configurations and all directory contents", "why_tests_cant": "arbitrary list lengths and directory names", "anchors": ["seyfert/main/orchestration.py:do_multiple_new_seyfert_runs,sort_forecast_config_files,collect_rundirs,do_new_seyfert_run"]}
{"id": "C33", "title": "Run identifiers round trip", "statement": "Splitting a run directory name built from an identifier, a version and a timestamp returns those parts, even when the identifier itself contains underscores, digits or version-like fragments.", "quantifier": "all identifiers, versions of the documented form and timestamps", "why_tests_cant": "arbitrary identifiers, regular-expression backtracking", "anchors": ["seyfert/utils/general_utils.py:split_run_id", "seyfert/main/task_runners.py:setRunID,createRundir"]}
{"id": "C34", "title": "Composite Newton-Cotes integration", "statement": "For every supported order and every number of samples the composite rule uses every interval exactly once, integrates constants exactly, and on uniform grids integrates polynomials up to the order exactly; the result is linear in the integrand; unsupported orders are rejected.", "quantifier": "all sample counts, orders and integrands", "why_tests_cant": "all sizes modulo the order; the remainder handling differs for each residue", "anchors": ["seyfert/numeric/integration.py:CompositeNewtonCotesIntegrator"]}
{"id": "C35", "title": "Smooth step and filters", "statement": "The smooth step is 0 below the lower edge, 1 above the upper edge, between 0 and 1 and increasing inside, and symmetric about the centre; the top-hat filter and the void cut therefore stay in [0,1].", "quantifier": "all arguments, all edges with x_min < x_max", "why_tests_cant": "continuum of arguments", "anchors": ["seyfert/numeric/general.py:smoothstep,top_hat_filter", "seyfert/cosmology/c_ells.py:applyVoidsCutToLimberPowerSpectrum"]}
{"id": "C36", "title": "Stencil derivative", "statement": "The five-point stencil derivative is exact for every polynomial of degree at most four, is linear in the function and does not depend on the sign of the step.", "quantifier": "all polynomials of degree at most 4, all points and nonzero steps", "why_tests_cant": "continuum", "anchors": ["seyfert/numeric/general.py:callable_stencil_derivative"]}
{"id": "C37", "title": "Percentage differences used as comparison metric", "statement": "The comparison metric is symmetric in its arguments, zero exactly when they are equal (or their sum is zero), and never negative, so a threshold test on it detects every large difference.", "quantifier": "all pairs of arrays and tables", "why_tests_cant": "negative entries take another branch", "anchors": ["seyfert/numeric/general.py:pad", "seyfert/utils/run_loader.py:checkPadsDict"]}
{"id": "C38", "title": "Probe combinations and cross-correlation flags", "statement": "The combinations of n present probes are the n(n+1)/2 unordered pairs, each once, in the order the covariance code expects; the cross-correlation derivative flag of a pair does not depend on the order in which the two probes are named.", "quantifier": "all lists of distinct probes, all flag tables", "why_tests_cant": "arbitrary numbers of probes and tables", "anchors": ["seyfert/config/forecast_config.py:probes_combinations", "seyfert/config/main_config.py:getXCDerivativeFlag"]}
{"id": "C39", "title": "Configuration equality", "statement": "Two forecast configurations compare equal only if they describe the same survey, cosmology and probes; two parameters compare equal only if they would lead to the same computation.", "quantifier": "all pairs of configurations and parameters", "why_tests_cant": "needs pairs differing in exactly one field", "anchors": ["seyfert/config/forecast_config.py:__eq__", "seyfert/config/probe_config.py:__eq__", "seyfert/cosmology/parameter.py:__eq__"]}
{"id": "C40", "title": "Edited configuration depends only on the requested options", "statement": "The forecast configuration produced by the editor for a given set of options is the same whatever options were applied to the editor before; invalid options are rejected before anything is changed.", "quantifier": "all sequences of option sets", "why_tests_cant": "history dependent", "anchors": ["seyfert/config/forecast_config.py:ForecastConfigEditor"]}
{"id": "C41", "title": "Translating names to TeX", "statement": "Unknown parameter names are reported as errors, known names translate to their table entry, and translating a probe to TeX and back is the identity.", "quantifier": "all strings", "why_tests_cant": "arbitrary strings", "anchors": ["seyfert/utils/tex_utils.py:TeXTranslator"]}
{"id": "C42", "title": "Dictionary wrapper behaves as a map", "statement": "For any sequence of set, delete, update and read operations the dictionary wrapper gives the answers of a finite map with insertion order, and deleting or reading an absent key raises without changing it.", "quantifier": "all operation sequences", "why_tests_cant": "unbounded histories", "anchors": ["seyfert/base_structs/generic_dict.py:GenericDictInterface"]}
{"id": "C43", "title": "Elapsed time formatting", "statement": "For every nonnegative duration the formatted hours, minutes, seconds and milliseconds recompose to the duration, with minutes and seconds below 60 and milliseconds below 1000.", "quantifier": "all nonnegative rational durations", "why_tests_cant": "rounding boundaries", "anchors": ["seyfert/utils/formatters.py:time_format"]}
{"id": "C44", "title": "Redshift bin overlap", "statement": "The overlap of two redshift bins is their common interval, is absent exactly when they do not overlap in more than a point, is symmetric, and for bins that partition a range the overlaps with a fixed bin inside the range partition that bin; reversed bins are rejected.", "quantifier": "all pairs of intervals and all partitions", "why_tests_cant": "continuum of edges, touching bins", "anchors": ["seyfert/cosmology/redshift_density.py:get_bins_overlap,compute_photoXspectro_shotnoise_ij"]}
{"id": "C45", "title": "Piecewise bias", "statement": "The piecewise bias at every redshift of the grid is the value of the bin containing it, with constant extrapolation outside the bins and with bias values taken in numerical order of their index whatever the order of the parameter dictionary; a wrong number of values is rejected.", "quantifier": "all grids, edges and dictionaries", "why_tests_cant": "shared edges, arbitrary order, two-digit indices", "anchors": ["seyfert/cosmology/bias.py:PiecewiseBias"]}
{"id": "C46", "title": "Kernels and spectra are symmetric where they must be", "statement": "The kernel and the angular spectrum of an auto-correlation are symmetric in the bin indices; the spectrum of (b,a) computed from the same weights is the transpose of that of (a,b); skipping off-diagonal bins leaves exactly the diagonal.", "quantifier": "all weights, all numbers of bins, all linear integration rules", "why_tests_cant": "all shapes; auto and cross use different loops", "anchors": ["seyfert/cosmology/kernel_functions.py:evaluateOverRedshiftGrid", "seyfert/cosmology/c_ells.py:evaluateAngularCorrelation"]}
{"id": "C47", "title": "Run directory selection", "statement": "A directory is selected only if its name follows one of the recognised run-name patterns, and then exactly when all additional patterns, filters and substring conditions hold.", "quantifier": "all directory names and all filter arguments", "why_tests_cant": "combinations of optional arguments", "anchors": ["seyfert/utils/dir_explorer.py:DirectoryExplorer"]}
{"id": "C48", "title": "Opening HDF5 files", "statement": "Opening a file never destroys existing data unless write mode is requested; saving to an existing file adds to it; reading a missing file raises.", "quantifier": "all file states, modes and roots", "why_tests_cant": "all combinations", "anchors": ["seyfert/file_io/hdf5_io.py:AbstractH5FileIO.openFile,save,load"]}
{"id": "C49", "title": "Splitting redshifts for CAMB", "statement": "The redshift grid passed to CAMB in groups contains every redshift exactly once in order, and no group exceeds 150 redshifts.", "quantifier": "all grid lengths", "why_tests_cant": "all lengths, in particular around multiples of 150", "anchors": ["seyfert/cosmology/boltzmann_solver.py:CAMBBoltzmannSolver.run,computeCAMBRedshiftGroupsNumber"]}
{"id": "C50", "title": "Boltzmann code parameters conserve the densities", "statement": "The densities handed to CAMB and CLASS add up: baryons, cold dark matter and neutrinos to Omega_m, and matter, dark energy and curvature to one.", "quantifier": "all parameter values with h different from zero", "why_tests_cant": "continuum", "anchors": ["seyfert/cosmology/boltzmann_solver.py:computeCAMBCosmologicalBasis,computeCLASSCosmologicalBasis"]}
{"id": "C51", "title": "CAMB ini file round trip", "statement": "Writing a parameter dictionary as an ini file and reading it back gives the same dictionary for names and values without newlines, equals signs in names or surrounding blanks.", "quantifier": "all dictionaries of such strings", "why_tests_cant": "arbitrary strings, greedy regular expression", "anchors": ["seyfert/cosmology/boltzmann_solver.py:readCAMBIniFileToDict,writeDictToIniFile"]}
{"id": "C52", "title": "Noise and normalisation of spectra", "statement": "Shot noise is added only to the diagonal of auto-correlations and is the same at every multipole; the normalised spectrum is the spectrum plus noise times sqrt(1/(dl f_sky)); joint blocks place each pair of probes at its own rows and columns and are symmetric.", "quantifier": "all spectra, noises, widths and sets of probes", "why_tests_cant": "all shapes and probe sets", "anchors": ["seyfert/fisher/delta_cl.py:DeltaCl.computeNoise,evaluate,DeltaClCollection", "seyfert/fisher/fisher_utils.py:buildXCBlockMatrixForProbes"]}
{"id": "C53", "title": "Relative errors and figure of merit", "statement": "Relative errors are absolute errors divided by the magnitude of the fiducial (by one if the fiducial is zero), never negative, and numbers exactly for parameters with both an error and a fiducial; the figure of merit is invariant under reordering of parameters.", "quantifier": "all analyses", "why_tests_cant": "zero and negative fiducials", "anchors": ["seyfert/fisher/fisher_analysis.py:evaluateRelativeMarginalizedErrors,fishers_order", "seyfert/fisher/fisher_matrix.py:getFigureOfMerit"]}
{"id": "C54", "title": "Nested dictionary mapping and selection", "statement": "Mapping a function over a nested dictionary changes every leaf once, keeps all keys and nesting, and composes; selecting a subset of keys keeps exactly those keys with their values.", "quantifier": "all nested dictionaries and functions", "why_tests_cant": "arbitrary depth", "anchors": ["seyfert/utils/general_utils.py:map_nested_dict,subset_dict"]}
{"id": "C55", "title": "Unit conversions", "statement": "Each conversion and its inverse compose to the identity and are consistent with each other.", "quantifier": "all real numbers", "why_tests_cant": "continuum; tests use the value 1", "anchors": ["seyfert/utils/converters.py"]}
{"id": "C56", "title": "Translating an alias pair to the stored key", "statement": "For a spectra container that holds a probe pair in one orientation, translating the pair of aliases to a string key gives the key under which the pair is stored.", "quantifier": "every container content and every pair of probes", "why_tests_cant": "the answer depends on which orientation is stored and on what the membership test accepts; a test fixes one container", "anchors": ["seyfert/base_structs/cl_dict.py: FlexDict.tuple_key_to_str_key, FlexDict.__getitem__", "seyfert/base_structs/generic_dict.py: GenericDictInterface"]}
{"id": "C57", "title": "Correlation matrix of the parameters", "statement": "After an inverse has been obtained (by evaluating it or by marginalising), the correlation matrix of a Fisher matrix has, for every pair of cosmological parameters, the inverse entry divided by the two standard deviations of these parameters: one on the diagonal, symmetric.", "quantifier": "every Fisher matrix, every row order, every iteration order of sets, every history that produced the inverse", "why_tests_cant": "the labels depend on the iteration order of sets of strings, which changes between processes; a test fixes one order", "anchors": ["seyfert/fisher/fisher_matrix.py: evaluateCorrelationMatrix, marginalizeParameters"]}
{"id": "C58", "title": "A Fisher matrix operation that raises changes nothing", "statement": "If fixing, marginalising, selecting, adding a prior, evaluating the inverse or reading the errors of a Fisher matrix raises, the object's matrix and parameter sets are as before.", "quantifier": "every well-formed Fisher matrix, every argument, every operation", "why_tests_cant": "failure depends on singular minors of arbitrary matrices", "anchors": ["seyfert/fisher/fisher_matrix.py: fixParameters, marginalizeParameters, selectRelevantFisherSubMatrix, addPriorToParameters, evaluateInverse, getMarginalizedErrors"]}
{"id": "C59", "title": "Final results are computed from the loaded matrices", "statement": "Creating the final results of a cosmology and nuisance treatment never changes the loaded Fisher matrices, so the six configurations do not influence each other. Each result is the loaded matrix of that name with the given cosmological parameters fixed and the nuisance parameters fixed, marginalised or kept, or the signed sum of such matrices; the reported errors are those of exactly that matrix; every loaded name and every combination of loaded names has a result. For positive definite matrices and sums it never raises.", "quantifier": "for every set of loaded matrices, every set of fixed parameters, every nuisance treatment, every list of combinations, every iteration order of sets, and also when an exception interrupts the computation", "why_tests_cant": "Objects are shared between dictionaries and modified in place with a cached inverse; whether a configuration sees leftovers of an earlier one or reports errors of a stale inverse depends on the whole sequence of operations.", "anchors": ["seyfert/fisher/final_results_core.py:create_results_for_cosmology", "seyfert/fisher/final_results_core.py:create_final_results", "seyfert/fisher/fisher_analysis.py:FisherAnalysis.evaluateMarginalizedErrors"]}
{"id": "C60", "title": "Confidence ellipses and ranges", "statement": "For every positive definite covariance of two parameters and every confidence factor, the ellipse given by the reported centre, width, height and angle is exactly the contour on which the quadratic form of the inverse covariance equals the factor squared; the reported one-parameter range is exactly the projection of that ellipse; the width is the larger axis.", "quantifier": "all fiducials, all positive definite 2x2 covariances, all positive confidence factors, all points of the plane", "why_tests_cant": "the identity between a drawn ellipse and a level set has to hold at every point for every covariance, including the degenerate orientations where the angle formula switches branch", "anchors": ["seyfert/fisher/fisher_analysis.py: FisherAnalysis.computeEllipseInfoDictForObsAndCL, computeParameterRangeForObsAtCL"]}
{"id": "C61", "title": "The covariance of a data vector without repetitions is invertible", "statement": "If at a multipole the spectra between all bins of the probes involved form a positive definite matrix, the covariance of any data vector built from these probes that lists no correlation twice (not even with exchanged probes) is positive definite, so the Fisher evaluation never fails on a singular covariance; and if a correlation is listed twice, the covariance is singular for all spectra.", "quantifier": "all data vectors, numbers of bins, positive definite spectra, multipoles", "why_tests_cant": "an algebraic fact about matrices of unbounded size with arbitrary entries", "anchors": ["seyfert/fisher/fisher_evaluator.py:ClCovarianceMatrix.computeCovBlock,buildMatrix,evaluateInverse"]}
{"id": "C62", "title": "When a Fisher matrix is computed", "statement": "With spectra and derivatives present, a Fisher matrix is produced if and only if the common multipoles of the derivatives are the common multipoles of the covariance, there are at least two of them and the covariance is invertible at each (given the stored tables where they are needed); a data vector with exactly one common multipole is refused.", "quantifier": "all data vectors, grids, spectra and derivatives", "why_tests_cant": "depends on arbitrary overlaps of multipole grids", "anchors": ["seyfert/fisher/fisher_evaluator.py:FisherEvaluator.checkClDerivativeMultipolesConsistency,buildVectorizedClDerivatives,computeFisherMatrix"]}
{"id": "C63", "title": "A failed save of parameters keeps the existing file", "statement": "Saving a parameter collection to a JSON file either writes a file that can be read back, or raises and leaves whatever file was at that path as it was.", "quantifier": "every parameter collection and every previous content of the file", "why_tests_cant": "which collections cannot be serialised depends on the state of the collection (no displacements loaded, numpy booleans as flags); a test tries one good collection", "anchors": ["seyfert/cosmology/parameter.py:PhysicalParametersCollection.writeJSON"]}
{"id": "C64", "title": "Free parameters of a probe", "statement": "The free parameters reported for a probe are exactly the free cosmological parameters plus the free nuisance parameters of that probe, each with its current definition, and nothing from another probe.", "quantifier": "every parameter collection with distinct keys and every probe name", "why_tests_cant": "collections are arbitrary mixtures of free/fixed, cosmological/nuisance parameters for any number of probes", "anchors": ["seyfert/cosmology/parameter.py:PhysicalParametersCollection.getFreePhysicalParametersForProbe"]}
{"id": "C65", "title": "Spectra are paired with the parameter values they were computed for", "statement": "When a derivative is fitted, the angular spectra collected for a parameter come in the order of the displaced parameter values: the i-th spectrum file is the one that was computed with the i-th value, whatever order the file system lists the directories in.", "quantifier": "Every collection of parameters, every number of displacements, every free parameter, every listing order of the job directories.", "why_tests_cant": "The order of a directory listing is up to the file system, and the sort key is parsed out of directory names; only a proof covers all orders and all numbers of steps.", "anchors": ["seyfert/derivatives/differentiator.py:ClDifferentiator.collectClVariationsFiles", "seyfert/utils/filesystem_utils.py:get_dvar_step_from_cosmology_jobdir_name", "seyfert/cosmology/parameter.py:PhysicalParametersCollection.computePhysParSTEMValues"]}
{"id": "C66", "title": "Names of generated configurations", "statement": "Generating configurations for two different sets of options never gives the same file name or the same configuration identifier, so no generated configuration overwrites another one.", "quantifier": "all pairs of accepted option sets", "why_tests_cant": "all pairs of option sets, any number of bins", "anchors": ["seyfert/config/forecast_config.py:ForecastConfigEditor.createFileName", "seyfert/file_io/json_io.py:getConfigID"]}
{"id": "C67", "title": "Locating an input file of a probe", "statement": "The input file of a probe is taken from the first of the probe's directories that holds it; if none does, this is reported.", "quantifier": "all file systems and file names", "why_tests_cant": "arbitrary sets of existing files", "anchors": ["seyfert/config/probe_config.py:getProbeInitFile"]}
{"id": "C68", "title": "Constant bias values go to the bins they are named after", "statement": "With a constant galaxy bias, bin number i is given the value of the bias parameter whose name carries the number i, independently of the order in which the parameters are stored or were read from a file.", "quantifier": "all collections of bias parameters with distinct bin numbers and all orders of storing them", "why_tests_cant": "The tested configurations have few bins, stored in numerical order; the claim is about every order, in particular the alphabetical one of files with ten bins or more.", "anchors": ["seyfert/cosmology/bias.py: ConstantBias, PiecewiseBias"]}
{"id": "C69", "title": "Kernels hold the values for their redshift grid", "statement": "After a kernel has been evaluated on a redshift grid, and in particular after a repeated evaluation with overwriting, its values are those of the product of the two weight functions on this grid.", "quantifier": "all weight functions, background cosmologies, grids and previous evaluations", "why_tests_cant": "It is a statement about every history of evaluations of kernels that share weight functions.", "anchors": ["seyfert/cosmology/kernel_functions.py: KernelFunction.evaluateOverRedshiftGrid", "seyfert/cosmology/weight_functions.py: WeightFunction.evaluateOverRedshiftGrid"]}
{"id": "C70", "title": "Integration methods accepted for the angular spectra", "statement": "The spectra are integrated with the method that is configured, or the computation is refused: Simpson and adaptive quadrature always, Newton-Cotes with the order written after the last underscore, Romberg exactly when the number of redshifts is a power of two plus one; any other name is refused.", "quantifier": "all method names and numbers of redshifts", "why_tests_cant": "It ranges over all strings and all grid sizes.", "anchors": ["seyfert/cosmology/c_ells.py: AngularCoefficient.computeClIntegral"]}
{"id": "C71", "title": "The amplitude is tuned to the requested sigma8", "statement": "Tuning the scalar amplitude ends, and with the resulting amplitude the Boltzmann code gives the requested sigma8, whenever sigma8 squared is proportional to the amplitude.", "quantifier": "all requested values, starting amplitudes, tolerances and proportional responses", "why_tests_cant": "Termination of a loop without bound, over a continuum of values.", "anchors": ["seyfert/cosmology/boltzmann_solver.py: CAMBBoltzmannSolver.finetuneScalarAmpFromSigma8"]}
{"id": "C72", "title": "A save happens entirely or not at all", "statement": "If saving an object into an HDF5 file fails, the file is as it was before; in particular its attributes still describe the data stored in it.", "quantifier": "all file contents, groups and objects", "why_tests_cant": "the failing step can be any of the steps that write the object, on any earlier content", "anchors": ["seyfert/file_io/hdf5_io.py:AbstractH5FileIO.save,createDataset"]}
{"id": "C73", "title": "Run ids of different combinations differ", "statement": "When several runs are orchestrated, runs of different combinations of configurations have different ids, so that results of one cannot be taken for those of another.", "quantifier": "all lists of configuration files and power spectra directories", "why_tests_cant": "arbitrary file names", "anchors": ["seyfert/main/orchestration.py:do_new_seyfert_run,do_multiple_new_seyfert_runs"]}
{"id": "C74", "title": "Command line of an orchestrated run", "statement": "The program launched for a run gets exactly the task flags, options with their values and additional flags of that run.", "quantifier": "all argument values and paths", "why_tests_cant": "arbitrary paths", "anchors": ["seyfert/main/orchestration.py:build_seyfert_cmd"]}
{"id": "C75", "title": "Comparing Fisher matrices", "statement": "Two Fisher matrix objects are equal under == exactly when they have the same name, the same parameters and the same entry for every pair of parameters, whatever the order of their rows; objects that differ in any of these compare as different, and equal objects are interchangeable. The consistency check accepts exactly the objects whose rows and columns are labelled by their declared parameters in one common order.", "quantifier": "all pairs of Fisher matrices, all parameter sets, all row orders", "why_tests_cant": "Tests compare a matrix with a copy of itself; they do not cover arbitrary row orders, different parameter sets or different divisions into cosmological and nuisance parameters.", "anchors": ["seyfert/fisher/fisher_matrix.py: FisherMatrix.__eq__, checkAttributes"]}
{"id": "C76", "title": "More information never gives larger errors", "statement": "For positive definite Fisher matrices: fixing parameters, or adding another Fisher matrix with a non-negative quadratic form, never increases the reported marginalised error of any parameter and never lowers the figure of merit; the unmarginalised error of a parameter never exceeds its marginalised error, and both reports cover the same parameters.", "quantifier": "all positive definite Fisher matrices, all subsets of fixed parameters, all added matrices, all parameters", "why_tests_cant": "It is an inequality between results for every matrix and every subset; tests check it on a few sample matrices.", "anchors": ["seyfert/fisher/fisher_matrix.py: fixParameters, __add__, getMarginalizedErrors, getUnmarginalizedErrors, getFigureOfMerit"]}
{"id": "C77", "title": "Priors", "statement": "Adding priors to a Fisher matrix changes exactly the diagonal entries of the named parameters, by the inverse square of the fraction times the fiducial value; for a positive definite matrix no error reported afterwards is larger than before, and the error of a parameter with a prior is at most the width of the prior.", "quantifier": "all Fisher matrices, all sets of parameters with priors, all fractions and fiducial values", "why_tests_cant": "The bound must hold for every matrix and every prior; a test shows it for one.", "anchors": ["seyfert/fisher/fisher_matrix.py: addPriorToParameters, getMarginalizedErrors"]}
{"id": "C78", "title": "Recorded input files of a run", "statement": "Setting up a run directory succeeds exactly when all given configuration files exist; afterwards every configuration, the parameters and the data directory read back from the run directory are those given, later changes of the original files do not affect them, and nothing outside the run directory is changed.", "quantifier": "all sets of configuration files, all contents, all states of the disk, all later changes outside the run directory", "why_tests_cant": "The record must be right for every combination of file names and every earlier content of the directory; a test uses one set of files with different names.", "anchors": ["seyfert/utils/workspace.py: WorkSpace.createInputFilesDir, theInputFilesDict, getTaskJSONPath", "seyfert/main/seyfert_core.py: prepare_workspace"]}
{"id": "C79", "title": "Links to results of other runs", "statement": "Using results of another run creates links for exactly the given tasks, never replaces a directory that is there, refuses unknown tasks before anything is changed, and can be repeated after a failure.", "quantifier": "all sets of external directories, all trees, all orders of the tasks, repeated calls", "why_tests_cant": "What exists already and where a failure occurs varies without bound; a test shows one tree.", "anchors": ["seyfert/utils/workspace.py: WorkSpace.symlinkToExternalDirs, createSymlink", "seyfert/main/seyfert_core.py: prepare_workspace"]}
{"id": "C80", "title": "Order of the computations of a forecast", "statement": "For every choice of tasks, every execution mode and every place where a computation fails, each requested computation is started at most once and after all requested computations it needs, nothing is started after a failure, final results come last, and with execution 'no' nothing is computed.", "quantifier": "all choices of tasks, all execution modes, all failures depending on the history", "why_tests_cant": "Failures may occur anywhere and depend on what was done before; tests run a few choices to the end.", "anchors": ["seyfert/main/task_runners.py: ForecastRunner.run, computeDensities, computeDeltaCls, TaskRunner.run", "bin/job_submitter: main"]}
{"id": "C81", "title": "Interactive jobs", "statement": "Jobs run one after the other in the given order; the task stops at the first job that fails and reports it, and it is reported as completed exactly when all jobs ended successfully.", "quantifier": "all lists of jobs, all exit codes and outputs", "why_tests_cant": "It depends on every possible way in which each of arbitrarily many jobs ends.", "anchors": ["seyfert/main/task_runners.py: TaskRunner.executeJobsInteractively, executeCommand"]}
{"id": "C82", "title": "Removal of varied spectra", "statement": "After a forecast the directories of the spectra of displaced parameters are removed and nothing else, unless they are to be kept; when a directory name cannot be read nothing is removed.", "quantifier": "all contents of the directory, all orders in which it is listed, all parameter names and steps", "why_tests_cant": "Deleting the wrong directory must be impossible for every listing; a test shows one.", "anchors": ["bin/job_submitter: main", "seyfert/utils/workspace.py: WorkSpace.collectClVariationDirectories"]}
{"id": "C83", "title": "Run directories, duration and memory", "statement": "A new run gets a new empty directory and never touches another one; different forecasts get different directories; the recorded duration is the time between start and end; jobs get at least the memory asked for.", "quantifier": "all identifiers, times and states of the working directory; all durations, memory sizes and numbers of bins", "why_tests_cant": "It must hold for every state of the working directory and every time stamp; tests do not run for a day.", "anchors": ["seyfert/main/task_runners.py: ForecastRunner.createRundir, addTimingDataToMetadata, FisherTaskRunner.submitBatchJobs", "seyfert/main/seyfert_core.py: execute_interactively, compute_bsub_options"]}
{"id": "C84", "title": "Options from command line and ini file", "statement": "An option means the same on the command line and in the ini file, options of the ini file replace those of the command line and no others, unknown options are refused, and accepted options have a valid execution mode and a positive number of cores.", "quantifier": "all sets of options and values", "why_tests_cant": "Every option and every text is a separate case; a test shows one ini file.", "anchors": ["bin/job_submitter: check_options, main block", "seyfert/utils/general_utils.py: convert_keyval_params_type", "seyfert/main/task_runners.py: ForecastRunner.createSingleTask"]}
{"id": "C85", "title": "Configuration used is the configuration recorded", "statement": "The jobs of a task use the configuration that the run directory records for it.", "quantifier": "all configuration files, all states of the disk, new and continued runs", "why_tests_cant": "It relates two copies of every file in all possible histories of the run directory.", "anchors": ["seyfert/main/task_runners.py: ForecastRunner.prepareWorkspace, createInputFilesDir, buildTaskRunners"]}
{"id": "C86", "title": "Spectra of displaced parameters in one process", "statement": "Each spectrum is computed with the parameter values of its own step as if it were the only one, afterwards all parameters have their fiducial values, and the spectra computed are those of the displacements that are configured.", "quantifier": "all parameter collections, all displaced parameters, all numbers of displacements, all steps at which the computation fails", "why_tests_cant": "State shared between arbitrarily many steps; a test uses the shipped seven displacements.", "anchors": ["seyfert/main/cl_core.py: compute_cls_variations", "seyfert/cosmology/parameter.py: updatePhysicalParametersForDvarStep, resetPhysicalParametersToFiducial"]}
{"id": "C87", "title": "Expansion, distances and growth obey their equations", "statement": "A cosmology that is accepted as flat is flat; the Hubble parameter at redshift zero is a hundred times h, its square is the sum of the densities, the comoving distance is the integral of c over the Hubble parameter, and the growth is one today and has the stated logarithmic slope.", "quantifier": "all parameter values, all redshifts", "why_tests_cant": "Identities between functions of six real parameters and the redshift; a test compares a table at fiducial values.", "anchors": ["seyfert/cosmology/cosmology.py: checkParameters, computeHubbleParameter, computeComovingDistance, Omega_m_of_z, computeGrowthFactor"]}
{"id": "C88", "title": "Evaluated functions belong to the present parameters", "statement": "After evaluating a cosmology on its grid, what is stored are the functions of its present parameters and grid, the growth is one today, and rescaling spectra by the computed growth gives spectra that grow accordingly.", "quantifier": "all histories of changes and evaluations, all spectra", "why_tests_cant": "Depends on what was evaluated before the last change of parameters, in any order.", "anchors": ["seyfert/cosmology/cosmology.py: evaluateOverRedshiftGrid, rescalePowerSpectrumByComputedGrowth", "seyfert/cosmology/power_spectrum.py: getGrowthFromLinearPowerSpectrum"]}
{"id": "C89", "title": "Redshift distributions are probability densities", "statement": "The response to a true redshift has total probability one, the density of every bin is not negative and integrates to one, whatever the scale of the given distribution, the bins together hold no more galaxies than the survey, and the noise of a bin is the inverse of its number of galaxies.", "quantifier": "all distributions, all bin edges, all parameters of the photometric response, all orders of calls", "why_tests_cant": "Integrals of arbitrary functions over arbitrary bins.", "anchors": ["seyfert/cosmology/redshift_density.py: RedshiftDensity"]}
{"id": "C90", "title": "Weights of galaxies and lensing", "statement": "The lensing weight of a bin depends only on galaxies behind the redshift, vanishes at the end of the grid, is linear in the density and not negative; Simpson's rule is exact for quadratics; the weights are computed with the present bias, density and grid.", "quantifier": "all densities, all grids, all distances, all histories of evaluations", "why_tests_cant": "Linear and order properties over all functions on all grids.", "anchors": ["seyfert/cosmology/weight_functions.py: LensingWeightFunction, GalaxyWeightFunction, weight_function_for_probe"]}
{"id": "C91", "title": "Spectra of all bins form a positive matrix", "statement": "At each multipole the spectra between any bins of any probes form a positive semidefinite matrix, so that a spectrum between two bins is at most the geometric mean of those of the bins with themselves, and with noise the covariance matrix can be inverted.", "quantifier": "all weights, all spectra of matter, all cuts for voids, all sets of probes and bins, all integration rules with positive weights", "why_tests_cant": "Positivity of a quadratic form of arbitrary size for arbitrary functions.", "anchors": ["seyfert/cosmology/c_ells.py: evaluateAngularCorrelation, computeClIntegral, applyVoidsCutToLimberPowerSpectrum", "seyfert/fisher/delta_cl.py: evaluate"]}
{"id": "C92", "title": "External power spectra are filed under the right cosmology in the units of the program", "statement": "Converting a directory of power spectra of another code stores each file under the parameter and step that its name says, with the values of the parameters at this step, wave numbers times h and spectra over h cubed at their redshift and wave number, and without redshift zero; no file replaces another, and a refused file leaves those before it correct.", "quantifier": "all names of files, all orders and numbers of files, all grids and tables, all collections of parameters, all points at which a file is refused", "why_tests_cant": "The names, tables and sets of files are unbounded, and the shared parameters carry state from one file to the next.", "anchors": ["seyfert/file_io/ext_input.py: ISTInputReader.convertISTPowerSpectra, parseISTCosmoString, readISTPowerSpectrumTextFile, checkISTParams"]}
{"id": "C93", "title": "Tables of external spectra are read at the pairs of bins of the header", "statement": "The columns of a table of angular spectra are placed at the pairs of bins written in its header, counted from zero or one; spectra of a probe with itself are symmetric, all other entries are zero, and a wrong number of columns is refused.", "quantifier": "all headers, all numbers of bins, all tables", "why_tests_cant": "Headers are arbitrary text and the number of bins is unbounded.", "anchors": ["seyfert/file_io/ext_input.py: ISTInputReader.readSCameraClFile, getIndicesFromSCameraClFileHeader"]}
{"id": "C94", "title": "External Fisher matrices keep their entries", "statement": "An external Fisher matrix is read with the entry of each pair of columns at the names that the program uses for these parameters, whatever the order of the columns, and the name of the file gives the name of the combination of probes.", "quantifier": "all sets and orders of columns, all numbers of biases, all names of files", "why_tests_cant": "Permutations of any length and arbitrary names.", "anchors": ["seyfert/file_io/ext_input.py: ISTInputReader.readISTFisherMatrixFile"]}
{"id": "C95", "title": "Changing from bias and sigma8 to their product keeps the information", "statement": "For external Fisher matrices with parameters b_i and sigma8, the matrix for b_i*sigma8 has the same quadratic form for every change of the parameters, leaves errors and correlations of the cosmological parameters unchanged, gives the products the errors that follow from those of the factors, and removing sigma8 afterwards is the same as fixing it; if the data only know the products, going back gives the original matrix without bias parameters. Every file of the directory is read for its code, and differences between codes do not depend on units and cancel over the codes.", "quantifier": "all numbers and orders of parameters, all matrices, all fiducial values, all listings of the directory, all sets of errors", "why_tests_cant": "Matrices of every size over a continuum of values, and arbitrary names of parameters and files.", "anchors": ["seyfert/utils/ist_comparison.py: read_ISTGCphFishers, compute_errs, compute_deltas_errs, get_params_bases, T1, T2, apply_T1_remove_sigma8, apply_T1_remove_sigma8_then_T2"]}
{"id": "C96", "title": "Comparing two runs shows every difference", "statement": "When two runs are loaded and compared, each is read in the format of its own version, all spectra of the run are loaded under their parameter and displacement, every table that both runs have gets a line in the report, runs with different tables give a warning, and a good line means that all entries agree to the threshold; the difference table of two spectra shows no difference only for equal spectra.", "quantifier": "all names of run directories and versions, all listings of directories, all tables, thresholds and values, all numbers of bins and multipoles", "why_tests_cant": "Arbitrary names, versions and values; a difference that is not shown can only be excluded by looking at all of them.", "anchors": ["seyfert/utils/run_loader.py: RunLoader, RunComparison, ComparisonMetrics", "seyfert/file_io/retro_comp.py: read_cosmo_file, read_cls_file", "seyfert/utils/workspace.py: collectClVariationParams", "seyfert/utils/comparison_utils.py: ClDiff"]}
{"id": "C97", "title": "Stored results are found again", "statement": "Results of an analysis saved in a results directory can be loaded again: the tables of errors of every cosmology are found, the correlations are given to the Fisher matrix they belong to, and tables of two analyses in one place are refused instead of mixed up.", "quantifier": "all names of analyses and Fisher matrices, all numbers of cosmologies and files", "why_tests_cant": "Names are arbitrary; the files are found by patterns that may match too much or too little.", "anchors": ["seyfert/fisher/fisher_results.py: loadFromResultsDir", "seyfert/fisher/fisher_analysis.py: FisherAnalysis.saveFishersToDisk, writeAbsoluteAndRelativeMarginalizedErrors", "seyfert/fisher/results_collector.py: buildErrorsTable", "seyfert/utils/filesystem_utils.py: get_file_from_dir_with_pattern"]}
{"id": "C98", "title": "Collected results belong to their run", "statement": "Collecting the results of many runs gives a table with all rows of all runs in order; every row has the options of its run and the errors from its file; a run without its table or with two makes the collection fail instead of being left out. The table of analyses has in every row the options of the run in their columns and its analysis, and gives the same table of errors as the files.", "quantifier": "all numbers of runs, all files, all options in any order, all tables of errors", "why_tests_cant": "Options and their order differ between configurations; a value in a wrong column looks like any other value.", "anchors": ["seyfert/fisher/results_collector.py: buildErrorsTable, buildFisherAnalysesDataFrame, getErrorsTableFromAnalysesDataFrame"]}
{"id": "C99", "title": "Selecting and replacing among collected analyses", "statement": "Selecting collected analyses by values of options gives exactly the rows with these values; choosing Fisher matrices keeps these with their errors. Replacing matrices with spectroscopic power spectra by those with four bins changes exactly these, with errors and relative errors, takes them from the row with the same other options, changes nothing when repeated, and after a failure can be repeated.", "quantifier": "all tables of analyses, all selections, all names of matrices, all sequences of calls", "why_tests_cant": "Holds for arbitrary tables and names; the state after a failed replacement depends on where it failed.", "anchors": ["seyfert/fisher/results_collector.py: getFisherAnalysesSubDf, replaceHybridFishersWith4BinsEquivalents", "seyfert/fisher/fisher_analysis.py: getSubsetAnalysis"]}
{"id": "C100", "title": "A submitted batch job gets the requested resources and its own logs", "statement": "After any sequence of settings of queue, cores and memory, the submission command contains exactly the last of them, the paths of the logs and the script. Logs of jobs with different names or different times have different paths. The function returns the job number that the scheduler printed, after having created the directories of the logs.", "quantifier": "all sequences of settings, all queues, numbers of cores and memories, all names and times, all answers of the scheduler", "why_tests_cant": "Settings accumulate over the life of the object, and the scheduler can answer anything.", "anchors": ["seyfert/main/bsub_utils.py: BsubInterface.setOptions, buildBsubCommand, submitJob"]}
{"id": "C101", "title": "Times, names and resources are read back from logs", "statement": "The table of used resources has for every log its label, its start and end, its duration, and the processor time, memory and number of threads that the log states.", "quantifier": "all logs with the lines that the scheduler writes, all valid dates, all names", "why_tests_cant": "Dates, durations and other text of a log are unlimited.", "anchors": ["seyfert/main/bsub_utils.py: BsubInterface.extractDateTimeFromOut, getResourceUsageTable"]}
{"id": "C102", "title": "The report on a run states what happened", "statement": "In the report a job has failed if and only if its log of errors has text, succeeded if and only if that log is empty and there is a result, and was not executed if and only if it has no logs. A task covers all its job directories once, the numbers of jobs in the states add up, and the states of tasks and of the run follow from those of the jobs, whatever the order of listing.", "quantifier": "all directory trees, all contents of logs, all numbers of jobs and tasks, all orders of listing", "why_tests_cant": "Combinations of states over any number of jobs and tasks, and orders of the file system.", "anchors": ["seyfert/main/report_maker.py: JobReport, TaskReportMaker, RunReportMaker"]}
{"id": "C103", "title": "Times, numbers and hosts in the report", "statement": "The execution time of a job in the report is the time between start and end in its log. The number of a job and its hosts are those that stand in the log. Good hosts are those of successful jobs and bad hosts those of failed ones. Jobs are listed by number.", "quantifier": "all logs of any number of lines, all valid dates, all sets of jobs", "why_tests_cant": "Other lines, reruns into one log, and dates are unlimited.", "anchors": ["seyfert/main/report_maker.py: getExecutionTimeFromOutfile, convertDateTimeString, buildJobsReports"]}
{"id": "C104", "title": "Choice of the bias model and the bias of flagship galaxies", "statement": "The bias is computed with the model whose name is given, and a model for voids with its own cosmology. An unknown name and a missing cosmology are refused. The bias of flagship galaxies needs its four parameters, is the same in all bins, lies strictly between its two limits, takes their mean at the middle redshift, is symmetric about it and grows with redshift for positive slope and amplitude.", "quantifier": "all names, all cosmologies given or not, all values of the parameters, all grids of redshifts and bins", "why_tests_cant": "The curve has four real parameters and is evaluated on any grid.", "anchors": ["seyfert/cosmology/bias.py: Bias.initBiasModel, Bias.evaluateBias, EuclidFlagshipGCphBias.computeBias"]}
{"id": "C105", "title": "Bias of voids", "statement": "The models for voids accept only the grid of redshifts of their cosmology and give each bin one value for all redshifts. With the fiducial growth factor it is the parameter divided by the growth factor at the centre of the bin. With the size function it is the mean over the radii at the centre of the bin; where the size function is positive this mean lies between the smallest and the largest bias of the radii, and below one if all voids are rare. Nuisance parameters do not change the model with the size function, and the cosmology of the run does not change the one with the fiducial growth factor.", "quantifier": "all cosmologies, grids, bins, thresholds, ranges and numbers of radii, all splines through the points", "why_tests_cant": "The mean is over any number of radii with any variance as a function of the radius.", "anchors": ["seyfert/cosmology/bias.py: FiducialGrowthVoidBias.computeBias, VdnVoidBias.computeBias, computeVdnSizeFunction, voidMultiplicity"]}
{"id": "C106", "title": "Variance of the filtered matter density", "statement": "The root of the variance of the filtered density is never negative, does not grow with the radius on a grid of wave numbers with steps that do not change too fast, scales with the root of the spectrum, ignores the filter when all wave numbers are well below the inverse of the radius and vanishes when all are well above. An array of radii gives one value each; other arguments are refused.", "quantifier": "all spectra that are not negative, all such grids, all radii", "why_tests_cant": "Monotonicity is about all pairs of radii and all spectra.", "anchors": ["seyfert/cosmology/cosmology.py: Cosmology.sigmaR, Cosmology.computeSigmaR", "seyfert/numeric/general.py: top_hat_filter"]}
{"id": "C107", "title": "Files of the bias", "statement": "A bias that is saved and read back is the same bias and gives the same values in every bin. Saving it again gives the same file. Reading into a bias that exists replaces its probe, model and parameters.", "quantifier": "all biases, all sets of parameters, all numbers of bins", "why_tests_cant": "The order of names in a file differs from the order in memory only for larger numbers of bins.", "anchors": ["seyfert/cosmology/bias.py: H5Bias.writeObjectToFile, H5Bias.writeToObject, ConstantBias.computeBias"]}
{"id": "C108", "title": "Files of redshift densities and weight functions", "statement": "A density or weight function saved under a path where nothing is comes back from the file as it was and nothing else in the file changes. A dictionary of densities comes back whole. An object lacking what the file needs is refused, and nothing in a file is ever overwritten by a second save under the same path. Loading into an existing weight function gives the stored one.", "quantifier": "all densities and weight functions, all files, all paths, all dictionaries", "why_tests_cant": "What a file already holds, the names of the entries and which attributes are set are unbounded; a writer and a reader that disagree on one path are seen only with that content.", "anchors": ["seyfert/cosmology/redshift_density.py: H5Density, save_densities_to_file, load_densities_from_file", "seyfert/cosmology/weight_functions.py: H5WeightFunction, WeightFunction.loadFromHDF5"]}
{"id": "C109", "title": "Files of angular spectra", "statement": "A collection of spectra saved to a file and loaded from it is the same collection: the same redshifts, the same spectra with their kernels, the same weight functions, and equal to the saved one in both directions. Collections under different roots of one file do not influence each other. Spectra without kernel can be saved and loaded.", "quantifier": "all collections of any number of spectra and probes, in any order", "why_tests_cant": "Weight functions are shared between spectra and written once; which of them reaches the file depends on the order and on what was saved before.", "anchors": ["seyfert/cosmology/c_ells.py: H5Cl, H5ClCollection, AngularCoefficient.__eq__, AngularCoefficientsCollector.__eq__", "seyfert/cosmology/kernel_functions.py: H5Kernel", "seyfert/file_io/hdf5_io.py: findGroup"]}
{"id": "C110", "title": "Files of covariances and of derivatives of spectra", "statement": "Covariances saved to a file come back with names, probes and arrays under the same keys, in order of name, and nothing else in the file changes. Derivatives of spectra written to a file come back with their multipoles and the probes that their keys name.", "quantifier": "all collections of covariances and derivatives, all files, all roots", "why_tests_cant": "The keys and the set of optional arrays are unbounded, and empty collections behave differently from others.", "anchors": ["seyfert/fisher/delta_cl.py: H5DeltaCl, H5DeltaClCollection, DeltaClCollection.fromHDF5", "seyfert/derivatives/cl_derivative.py: ClDerivativeCollector.writeToFile, ClDerivativeCollector.loadFromFile"]}
{"id": "C111", "title": "Files of cosmologies and power spectra", "statement": "A cosmology saved to a file, with its power spectrum or without, is read back as an equal cosmology: same flatness, model, redshifts, background functions, power spectrum and parameters found under the same names. What can be saved can be read. A cosmology or a power spectrum lacking required data is never saved. Loading a file into an existing cosmology makes it the cosmology of the file.", "quantifier": "all cosmologies and power spectra, with any parameters, any subset of optional arrays, all files and roots, all previous contents of the object that is loaded into", "why_tests_cant": "The parameters, the optional arrays and the previous state of file and object are unbounded, and each missing part changes what is written and read.", "anchors": ["seyfert/cosmology/cosmology.py: H5Cosmology, Cosmology.fromHDF5, Cosmology.saveToHDF5, Cosmology.loadFromHDF5, Cosmology.__eq__", "seyfert/cosmology/power_spectrum.py: H5PowerSpectrum, PowerSpectrum.fromHDF5, PowerSpectrum.saveToHDF5, PowerSpectrum.__eq__", "seyfert/cosmology/parameter.py: PhysicalParameter.to_dict, PhysicalParameter.from_dict"]}
{"id": "C112", "title": "Probes and parameters of a forecast", "statement": "A forecast read from a configuration file has exactly the probes switched on in the file, each with the multipoles of its entry, all their combinations, and exactly the parameters the file declares: the cosmological ones, and for each probe switched on one nuisance parameter per entry of its bias file, belonging to that probe, free exactly if the bias is marginalised over, and its extra parameters. Nothing that is declared is lost. What is wrong in the entry of a probe switched off does not matter. Reading the same file again changes nothing, and reading another file gives the forecast of that file.", "quantifier": "all configuration files: any set and order of probes, any contents of bias files, parameter lists, flags and displacements; all states of the object that is read into", "why_tests_cant": "Names can collide between any two of unboundedly many parameters, and what a second reading leaves behind depends on every earlier one.", "anchors": ["seyfert/config/forecast_config.py: ForecastConfig.loadConfiguration, ForecastConfig.loadProbeConfigurationsFromJSONConfig, ForecastConfig.loadPhysicalParametersFromJSONConfig", "seyfert/config/probe_config.py: ProbeConfig.loadFromJSONConfig, ProbeConfig.loadAllNuisanceParameters, ProbeConfig.present_nuisance_parameters"]}
{"id": "C113", "title": "Multipoles of a spectrum", "statement": "The multipoles of a spectrum are exactly those that both of its probes have, in increasing order, each with its bin width, and do not depend on the order of the two probes; an auto-correlation has the multipoles of its probe. A configuration is refused exactly if two of its probes have no multipole in common. For linear grids these are the unit intervals in both ranges.", "quantifier": "all multipole grids of two probes, computed or read from a file; all sets of probes and their combinations", "why_tests_cant": "The grids are arbitrary lists of numbers; alignment of widths with multipoles must hold for every overlap pattern.", "anchors": ["seyfert/config/forecast_config.py: ForecastConfig.getMultipoleArraysForProbeComb, ForecastConfig.checkProbesMultipoles", "seyfert/config/probe_config.py: ProbeConfig.getProbeMultipoleBinning", "seyfert/cosmology/c_ells.py: AngularCoefficient.__init__, AngularCoefficient.setUp, AngularCoefficientsCollector.setUp"]}
{"id": "C114", "title": "Shot noise given when the Fisher matrices are computed", "statement": "The normalised spectra are computed from every fiducial spectrum, with the noise of the configured file or, without one, that of the configuration; the collection has an entry for each probe and for each joint matrix. Giving a file of shot noise when the Fisher matrices are computed has the same effect on the blocks, and so on the covariance of every data vector, as having computed the normalised spectra with that file, whatever noise and sky fraction the stored ones had. A file that lacks the noise of a stored spectrum is refused. A file passed by the caller comes before the configured one.", "quantifier": "all sets of spectra, noises, sky fractions, files of shot noise and stored collections", "why_tests_cant": "Two ways through the program must agree for every spectrum, noise and stored state; what is shared between entries and blocks depends on the history of the collection.", "anchors": ["seyfert/fisher/delta_cl.py: DeltaClCollection.loadInpuDataFromWorkspace, DeltaClCollection.loadShotNoiseFromFile, DeltaClCollection.evaluateSingleBlocks, DeltaClCollection.buildXCBlocks, DeltaCl.evaluate", "seyfert/main/cl_core.py: compute_delta_cls", "seyfert/main/fisher_core.py: prepare_inputs"]}
{"id": "C115", "title": "Derivatives of spectra are fits through the spectra of the displaced parameter", "statement": "The derivative of an angular spectrum with respect to a free parameter is, entry by entry, the straight line fit through the points (value of the parameter at a step, spectrum computed with that value), in the order of the steps with the fiducial one in the middle, however the job directories are listed. The spectra of a step use the cosmology of that step for a cosmological parameter and the fiducial one for a nuisance parameter. The derivative with respect to a nuisance parameter of another probe is zero. If spectra are missing, no derivative is computed. Derivatives from the files of a run and derivatives computed in one process are the same. A spectrum of degree two in a parameter is differentiated exactly.", "quantifier": "all collections of parameters, displacements, theories of the spectra, orders of listing, spectra and entries", "why_tests_cant": "The values and the spectra meet only at the end of a chain of names, listings and sorts, and the two ways of computing have to agree for every theory and every parameter.", "anchors": ["seyfert/derivatives/cl_derivative.py: ClDerivative.evaluate, ClDerivativeCollector", "seyfert/derivatives/differentiator.py: SteMClDifferentiator.loadClData, ClDifferentiator.computeDerivative", "seyfert/main/cl_derivative_core.py: compute_cls_derivatives_wrt", "seyfert/main/cl_core.py: load_cosmology, compute_cls_variations", "bin/compute_cls", "bin/compute_derivatives"]}
{"id": "C116", "title": "An analysis knows the matrices it was given, in a known order", "statement": "An analysis loaded from a directory has exactly the matrices of the files it lists as base matrices, and they are the working matrices once the base matrices are used. Until an order is set the order is that of the working matrices; an order can be set if it consists of names of working matrices, and then it is the order reported. Building working matrices from lists of addends gives the sums of the named base matrices, and a missing addend is refused. The order always names every working matrix exactly once. A load that fails changes nothing.", "quantifier": "all directories, contents of files, lists of names and sequences of calls", "why_tests_cant": "The order, the base matrices and the working matrices are set by different calls in any sequence, on matrix objects that are shared.", "anchors": ["seyfert/fisher/fisher_analysis.py: FisherAnalysis, fishers_order, loadBaseFishersFromDir, fromFishersDir, fromRundir, getSubsetAnalysis, evaluateFishersFromAddendsList, useBaseFishers, sliceBaseFishers"]}
{"id": "C117", "title": "A plot shows every matrix in its own colour and every parameter with its range", "statement": "In a triangular plot every parameter has one panel with its curves and every two parameters have one panel with their ellipses; matrices have different colours, which stay the same from call to call. The range drawn for a parameter contains its fiducial value and the 99 percent intervals of the matrices. Ranges, settings and parameters that are given are those used. Files of ranges are not overwritten unless that is asked for.", "quantifier": "all analyses, lists of parameters and matrices, errors, files of ranges and sequences of calls", "why_tests_cant": "Which colour, panel and range belongs to which matrix is the outcome of calls in any sequence for any number of matrices and parameters; a picture does not tell that something is missing.", "anchors": ["seyfert/fisher/fisher_plot.py: FisherPlotter, FisherPlotConfig", "seyfert/fisher/fisher_results.py: FisherResultsCollector.setupFisherPlotters", "seyfert/notebook_helpers/contours.py: build_plotter"]}
{"id": "C118", "title": "Collected results are the errors of the sums of matrices, for every cosmology", "statement": "For every cosmology that the settings call present, the collector of results gives, for every list of addends, the marginalised errors and the figure of merit of the sum of the named Fisher matrices of the directory, restricted to the parameters of the cosmology and, if they are marginalised, to the nuisance parameters; without lists of addends it gives those of the single matrices. A cosmology with a parameter that is not free is refused before anything is read. Cosmologies do not influence each other. Plots do not change the outcome.", "quantifier": "all directories of Fisher matrices, settings, sets of parameters, lists of addends and treatments of nuisance parameters", "why_tests_cant": "The result passes through loading, restriction, sums, inversion and tables on shared objects; it has to be right for every set of parameters and every grouping of the matrices.", "anchors": ["seyfert/fisher/fisher_results.py: FisherResultsCollector.loadFromConfigFile, checkCosmologies, setUp, setupFisherAnalyses", "seyfert/fisher/fisher_analysis.py: FisherAnalysis.loadBaseFishersFromDir, evaluateFishersFromAddendsList, prepareFisherMatrices, evaluateMarginalizedErrors", "seyfert/utils/formatters.py: str_to_bool"]}
{"id": "C119", "title": "Tables of results keep, select and compare the right rows", "statement": "Selecting from the table of results with a query gives exactly the rows with the queried values, in order, and leaves out only columns that have one value in all of them; an empty query and a query for a missing column are refused. The table of figures of merit has the rows of the named matrices in the order of the names, and states as gain the difference and the percentage to the reference for the same number of bins and the same further settings, wherever the reference has such a row. Replacing the rows of matrices with the power spectrum by those of four bins changes their numbers only, leaves all other rows alone and can be repeated. A printed row shows the sign of the gain and all errors.", "quantifier": "all tables, queries, lists of names, references, numbers of bins and settings", "why_tests_cant": "Rows are found by value in tables of any size and are aligned by an index; a wrong row is a plausible number in a published table.", "anchors": ["seyfert/notebook_helpers/table_helpers.py: query_dict, select_from_query_dict, remove_constant_columns_from_df, get_subdf_for_fishers, set_results_indices, compute_simple_difference, compute_percentage_difference, get_fom_table_for_fishers, replace_hybrid_fishers_with_4_bins_equivalents, get_latex_row", "seyfert/numeric/general.py: percentage_difference"]}
{"id": "C120", "title": "Orchestrated runs take their arguments from the prepared configuration directory", "statement": "Preparing the configuration directory puts a copy of every given file in its sub-directory, keeps all other files of the sub-directories, and reports exactly the failures that happen. Once forecast configurations are added, a later call of the program makes, when nothing stops it, one run per forecast configuration and power spectra directory, and every run gets one of those forecast configurations, one of those directories and the copies of the prepared files, in whatever order the system lists the directories. A call for new runs is refused when there is no task, no way of execution, no forecast configuration or no power spectra. Lists of paths in text files are replaced by the paths in them, in order. Runs on existing directories get the configuration files recorded in each directory.", "quantifier": "all configuration directories, listing orders, given files, command lines, lists of paths and recorded inputs", "why_tests_cant": "The arguments of expensive runs follow from the state and order of a directory made by an earlier call; a wrong file gives a full, plausible forecast.", "anchors": ["seyfert/main/orchestration.py: create_config_dir_tree, get_configs, get_pmm_dirs, do_multiple_seyfert_runs_on_existing_rundirs", "seyfert/config/cmd_line.py: get_paths_from_files_list", "bin/orchestrate_run: main"]}
{"id": "C121", "title": "The Fisher task computes every selected Fisher matrix once, rightly, in any order of its jobs and after interruptions", "statement": "Whatever jobs of the Fisher task are started, run at the same time or killed, every Fisher matrix and table that can be read is right, and none that was complete is ever changed or lost. In a fresh directory, or with overwriting, the task succeeds in every order of the steps of its jobs and leaves the right Fisher matrices of all selected data vectors and no others, the same in a batch run as in an interactive one. After any interruption that left no file cut off, running the task again completes the directory. The file of selected data vectors has 33 data vectors, the first three being single auto-correlations.", "quantifier": "all values computed, all schedules of all jobs, all crash points, all histories of jobs started and killed, all directories", "why_tests_cant": "A test sees one order of the jobs and no kill at a chosen instant; a Fisher matrix silently missing or taken from a half-written file changes the forecast without an error.", "anchors": ["seyfert/main/task_runners.py: FisherTaskRunner", "seyfert/main/fisher_core.py: compute_fisher_matrix, compute_and_save_fishers", "bin/compute_fisher_matrix: main", "seyfert/fisher/fisher_utils.py: load_selected_data_vectors", "seyfert/data/fishers/selected_datavectors.txt"]}
{"id": "C122", "title": "The configuration saved from the window gives back the forecast on the screen", "statement": "The configuration window saves a file exactly if its numbers are numbers and its flags are flags. A saved file is read exactly if the displacements are numbers, the void tab is not ticked and the multipoles of the ticked tabs can be had; then the forecast has the probes of the ticked tabs with the multipoles shown, all combinations of them, the flatness, the displacements and the sky fraction shown, and the parameters shown, whoever saved it and when. The name of the saved file ends with .json unless json stands between two dots in it.", "quantifier": "all contents of all fields and boxes of the window, all parsers of numbers, all input files, all names", "why_tests_cant": "A test sets the fields to a few values and needs a display; that what is saved means what is shown must hold for every combination of fields.", "anchors": ["seyfert/gui/interface_window.py: GUIFileInterface, dumpToJSONAndExit", "seyfert/gui/gui_core.py: Ui_SeyfertConfigGUI", "seyfert/config/forecast_config.py: loadConfiguration", "seyfert/config/probe_config.py: loadFromJSONConfig, getProbeMultipoleBinning", "seyfert/file_io/json_io.py: JSONForecastConfig"]}
{"id": "C123", "title": "The stored Fisher matrices hold the information of the spectra, from the spectra to the files", "statement": "Given a complete set of spectra and derivatives of the three probes, the Fisher task on the selected data vectors ends without failing, interactively or in a batch system, however its jobs are interleaved, and leaves for each of the 33 data vectors a Fisher matrix over the free parameters of its probes. Its entries are the Gaussian information of all listed correlations at the multipoles that all its probes have, plus that of each auto-correlation listed at the other multipoles of its probe. At no moment of any history of started, interleaved and killed jobs can anything else be read from these files.", "quantifier": "all spectra and derivatives whose joint matrices are positive definite, all numbers of bins, all multipole grids with two multipoles in common, all free parameters, all iteration orders of sets, all schedules and kills of jobs, both ways of running", "why_tests_cant": "A test runs one forecast on one schedule and compares numbers with a stored result; that the numbers are the information, for every forecast and every schedule, is a statement about all of them.", "anchors": ["seyfert/main/fisher_core.py: compute_fisher_matrix, compute_and_save_fishers", "seyfert/fisher/fisher_evaluator.py: FisherEvaluator.computeFisherMatrix, addInvolvedProbesContribution", "seyfert/main/task_runners.py: FisherTaskRunner", "seyfert/fisher/datavector.py: ClDataVector.fromBriefString", "seyfert/data/fishers/selected_datavectors.txt"]}
{"id": "C124", "title": "The order of the correlations in a data vector does not change its Fisher matrix", "statement": "Two data vectors that list the same correlations, in any order and with the probes of any correlation exchanged, have the same Fisher matrix.", "quantifier": "all data vectors without repetitions over any probes, all complete sets of spectra and derivatives, all iteration orders of the probes", "why_tests_cant": "The covariance is assembled block by block in the order of the data vector and inverted; a test compares a few orders of one data vector.", "anchors": ["seyfert/fisher/fisher_evaluator.py: ClCovarianceMatrix, FisherEvaluator.computeFisherMatrix", "seyfert/fisher/datavector.py: ClDataVector"]}
{"id": "C125", "title": "More correlations never give less information", "statement": "If all correlations of a data vector are in another one, the Fisher matrix of the other is at least as large, the marginalised errors computed from it are not larger and the figure of merit is not smaller; and a correlation that depends on no parameter and is independent of the others adds nothing.", "quantifier": "all pairs of data vectors of which one contains the other, all complete sets of spectra and derivatives", "why_tests_cant": "It compares all pairs of data vectors on all spectra; a few forecasts may satisfy it although the treatment of multipoles that are not shared breaks it.", "anchors": ["seyfert/fisher/fisher_evaluator.py: FisherEvaluator.computeFisherMatrix, addInvolvedProbesContribution", "seyfert/fisher/fisher_matrix.py: FisherMatrix.getMarginalizedErrors"]}
{"id": "C126", "title": "A forecast submitted as a batch job is the forecast that was asked for", "statement": "Called for the batch system, run_seyfert submits exactly one job for every forecast configuration it was given or that is listed in the files it was given. Each job runs one forecast, with the configuration, the settings, the input data, the external directories and the run directory it would have had if the program had been called with the same options to run the forecasts itself at the same times. Runs begun at different seconds have different directories.", "quantifier": "all command lines the program accepts, all numbers and names of configurations, all current directories, all times", "why_tests_cant": "The options go through a command line: written as text, split by a shell and parsed again. Tests try a few paths; the claim is about all of them, and needs no batch system.", "anchors": ["bin/run_seyfert: program_options, main", "seyfert/main/seyfert_core.py: get_interactive_run_command, execute_interactively, submit_batch_jobs", "seyfert/config/cmd_line.py: get_paths_from_files_list, forecast_task_configs_options, forecast_dirs_paths_options, main_submitter_batch_options"]}
{"id": "C127", "title": "Jobs that run at the same time do not disturb each other", "statement": "The jobs of a task can run one after the other or at the same time: however their steps are mixed, the files of the run end up the same, and at any moment, as after a crash, the directory of a job holds exactly what the job alone would have put there by then, and nothing outside the directories of the jobs has changed. A task that is stopped anywhere and run again as a whole leaves the same files as one that was not stopped. Each job computes what its directory is named after: the power spectrum, or the angular spectra, for one parameter displaced by one step, or the derivatives with respect to one parameter; after all tasks, the derivatives in the files of the run are the slopes of the fits through the spectra at the displaced values.", "quantifier": "all interleavings of the steps of any number of jobs, all points at which they can be stopped, all parameters and displacements, all configurations, all Boltzmann codes and theories", "why_tests_cant": "Schedules and crash points cannot be enumerated by tests, and the jobs run on a batch system. Tests see one order, usually the sequential one.", "anchors": ["bin/compute_pmm: main", "bin/compute_cls: main", "bin/compute_derivatives: main", "seyfert/main/task_runners.py: TaskRunner.writeJobShellScript, TaskRunner.fillJobDir, TaskRunner.run, PowerSpectrumTaskRunner, AngularTaskRunner, DerivativeTaskRunner, ForecastRunner.run", "seyfert/config/cmd_line.py: main_program_options", "seyfert/utils/workspace.py: getPowerSpectrumFile, getClFile"]}
{"id": "C128", "title": "Final results by batch jobs are those of a direct call", "statement": "The program that evaluates the final results can be told to do so itself or to submit a batch job per run directory. The jobs make the results of the same run directories, one for one and in the same order, in the same output directory and with the same leave to overwrite as the direct call would, whatever the other options were. A forecast has the final results of its own run directory made in this way, replacing old ones exactly if it was asked to.", "quantifier": "all command lines of the program, all lists of run directories given directly or in text files, all forecasts and their run directories, all values of the overwrite option", "why_tests_cant": "The options are written out as text, go through a shell and are parsed again; whether every value survives cannot be seen from a few calls, and the jobs need a batch system.", "anchors": ["bin/evaluate_final_results: program_options, execute_in_batch, main", "seyfert/config/cmd_line.py: batch_options, main_submitter_batch_options, get_paths_from_files_list", "seyfert/utils/formatters.py: str_to_bool", "seyfert/main/task_runners.py: ForecastRunner.evaluateFinalResults"]}
{"id": "C129", "title": "Equality of densities, biases, kernels, weight functions and spectra", "statement": "Two redshift densities, biases, bias models or kernels compare equal exactly if they hold the same data in every attribute that takes part in the comparison: the same grids and arrays element by element, the same parameters, the same names. Weight functions, power spectra, angular spectra and their uncertainties compare equal exactly if the listed grids and arrays are the same. An object equals itself and its copies, either of two objects can stand first, and equality passes on from one object to the next. The attributes printed as different are the ones which differ.", "quantifier": "all pairs and triples of objects, whatever their attributes, array shapes and elements", "why_tests_cant": "Comparisons of arrays stretch, swallow or raise depending on the shapes, and the tests of the project use this very comparison to decide whether results are right; samples of equal objects do not show which different ones pass as equal.", "anchors": ["seyfert/utils/general_utils.py: compare_objects", "seyfert/cosmology/redshift_density.py: RedshiftDensity.__eq__", "seyfert/cosmology/bias.py: Bias.__eq__, BiasModel.__eq__", "seyfert/cosmology/kernel_functions.py: KernelFunction.__eq__", "seyfert/cosmology/weight_functions.py: WeightFunction.__eq__", "seyfert/cosmology/power_spectrum.py: PowerSpectrum.__eq__", "seyfert/cosmology/c_ells.py: AngularCoefficient.__eq__, AngularCoefficientsCollector.__eq__", "seyfert/fisher/delta_cl.py: DeltaCl.__eq__"]}
{"id": "C130", "title": "Independent probes add up", "statement": "If the spectra between two groups of probes vanish, the Fisher matrix computed for the data vector of both groups is the sum of the Fisher matrices computed for each group: the same parameters and the same entries as the sum formed by the code. In particular, the Fisher matrix of probes which have nothing to do with each other is the sum of the Fisher matrices of the single probes, also if their (vanishing) correlations are part of the data vector and if the probes reach different multipoles.", "quantifier": "all data vectors without repetitions over any probes, all spectra and derivatives of a complete survey, all multipole grids, all orders in which probes are iterated", "why_tests_cant": "The sum goes through the inverse of the joint covariance and through the separate treatment of the multipoles which only some probes have; a sample survey with equal grids shows neither.", "anchors": ["seyfert/main/fisher_core.py: compute_fisher_matrix", "seyfert/fisher/fisher_evaluator.py: FisherEvaluator.computeFisherMatrix, addInvolvedProbesContribution", "seyfert/fisher/fisher_matrix.py: FisherMatrix.__add__"]}
{"id": "C131", "title": "The Fisher matrices are computed from what the jobs of the run have written", "statement": "After the derivative jobs of a run, the computation of the Fisher matrices uses, for every parameter which had a job and for no other, the derivatives which that job has written; and the covariance uses the spectra which the job of the fiducial values has written. If a job has failed, or if there is more than one file of derivatives in a directory, there is an exception instead of a Fisher matrix without the parameter. So the derivatives used after a whole run are, for exactly the free parameters, the slopes of the fits through the spectra of the displaced values.", "quantifier": "all run directories, parameters, configurations and computations; all orders in which the jobs make their steps; all orders in which the directories are listed; all contents of the directories before", "why_tests_cant": "The files are found again by patterns of their names: whether the right ones are found depends on everything else that is in the directories, on the names of parameters and probes, and on which jobs have failed.", "anchors": ["seyfert/main/fisher_core.py: prepare_inputs", "seyfert/utils/workspace.py: WorkSpace.getClFile, getClDerivativeFile, collectDerivativeParams", "seyfert/utils/filesystem_utils.py: get_file_from_dir_with_pattern", "seyfert/fisher/delta_cl.py: DeltaClCollection.loadFiducialClsFromWorkspace", "bin/compute_derivatives"]}
{"id": "C132", "title": "A session computes the angular spectra of its own configuration", "statement": "Someone who creates a Seyfert object for a run directory, prepares the workspace, evaluates the fiducial cosmology and the redshift densities and calls computeCls gets the angular spectra of the configuration files named in the arguments of this object. This holds whatever was done before with other objects or by other processes, in the same directory or in others, and wherever they were stopped; calls in a wrong order raise an exception.", "quantifier": "all sequences of calls on any number of objects, with all arguments, failing or not; all restarts, and all points at which a process is killed while it prepares the directory or writes the densities; all configuration files and all computations", "why_tests_cant": "The state is spread over objects, a shared default dictionary and files which are kept from earlier sessions: the result depends on the whole history, and tests run single sessions in new directories.", "anchors": ["seyfert/seyfert.py: Seyfert.__init__, prepareWorkspace, evaluateFiducialCosmology, evaluateRedshiftDensities, computeCls"]}
{"id": "C133", "title": "A job has the settings which its runner had when it wrote the configuration", "statement": "When a task runner writes its configuration for a job and the job reads it, every setting of the job (redshift grid, Boltzmann code and its files, integration methods, spline orders, directories, Fisher settings) is the one the runner had at that moment, with exceptions for the same settings; the copy has the same entries in the same order, also those the program does not know. Setting a value through the interface changes this setting and no other, and fails without a change if the section of the setting is missing.", "quantifier": "all contents of configuration files, all sequences of loading, setting, deleting and writing on any number of configurations, with other programs writing other files in between; all values", "why_tests_cant": "Settings are read from nested dictionaries which are changed in place and merged with an entry for the type: that no setting affects another one and that copies agree must hold for all contents and all orders of calls.", "anchors": ["seyfert/config/main_config.py: MainConfig.loadFromJSON, MainConfig.writeToJSON, PowerSpectrumConfig, AngularConfig, DerivativeConfig, FisherConfig", "seyfert/main/task_runners.py: TaskRunner.fillJobDir"]}
{"id": "C134", "title": "The settings of the configuration file are used as they stand there", "statement": "The redshift grid has the number of points given in the configuration file, begins with its z_min, ends with its z_max and is evenly spaced; the orders and the smoothing of the spline of the power spectrum are the ones given; what can not be used is refused with an exception. The configuration file of another task is refused.", "quantifier": "all configuration files and all values of the settings", "why_tests_cant": "Tests use the files which come with the program; the claim is about all values, among them fractions, negative numbers and single points, and about all files.", "anchors": ["seyfert/config/main_config.py: PowerSpectrumConfig.z_grid, AngularConfig.limber_spline_kx, limber_spline_ky, limber_spline_s, config_for_task"]}
{"id": "C135", "title": "Converting the angular spectra of another code gives one file per cosmology, with the spectra of its own files", "statement": "Converting a directory with the angular spectra of another code writes for each cosmology one directory, named after its parameter and step, with the photometric, spectroscopic and cross spectra read from the files of this cosmology. It is refused, before anything is written, if a name is not understood, a directory lacks a cosmology, a matrix has not the shape of its probes, or the multipoles differ. The result does not depend on the order in which the system lists the files.", "quantifier": "all sets of files in the three directories, all names and contents of files, all orders of listing, all collections of parameters", "why_tests_cant": "Which file serves which cosmology, and what is written before an exception, must be right for all names, contents and listing orders; the order is chosen by the file system.", "anchors": ["seyfert/file_io/ext_input.py: ISTInputReader.convertSCameraDerivativesInput, ISTInputReader.buildCosmoClsFilesDict, ISTInputReader.readSCameraClFile", "seyfert/cosmology/c_ells.py: H5Cl.writeObjectToFile, AngularCoefficient.weight1"]}
{"id": "C136", "title": "The derivatives of another code are read for the parameter and the probes they belong to", "statement": "Reading the derivatives of angular spectra computed by another code gives, for each parameter and each pair of probes, the matrices of the file named after the parameter in the directory of the probes, and nothing else; a file whose name is not understood, names two parameters, or lies in another directory is refused. The result does not depend on the order in which the files are found, and files on different multipoles are not mixed.", "quantifier": "all sets of files, names, contents and orders of finding them", "why_tests_cant": "The names are matched by a regular expression which skips arbitrary text, and later files replace earlier ones: the claim must hold for all names and orders.", "anchors": ["seyfert/file_io/ext_input.py: ISTInputReader.readSCameraClDerivatives, SCAMERA_PROBE_MAP, IST_PMM_COSMO_MAP"]}
{"id": "C137", "title": "The program which compares two runs compares all their results, reports every difference, and saves the comparison", "statement": "Comparing two finished runs loads the background, spectra, derivatives, Fisher matrices and errors of both, gives for each result that both have the percentage difference entry by entry, warns about each kind of result of which the two runs do not have the same pieces, and reports for each compared result whether it agrees within the tolerance. The comparison is saved under the versions of the runs and the time, loading it gives it back, and a comparison which fails saves nothing.", "quantifier": "all contents of the two run directories, all listings, all versions and times, all comparisons saved before", "why_tests_cant": "Which pieces are compared and reported depends on the names in both directories and on all entries; a test looks at one pair of runs.", "anchors": ["bin/compare_runs: main", "seyfert/utils/run_loader.py: RunLoader.loadRunData, RunLoader.loadCosmologiesAndCls, RunLoader.loadClDerivatives, RunLoader.loadFishers, RunLoader.loadResults, RunComparison.evaluateMetricsAndTest, RunComparison.saveComparisonData, RunComparison.loadComparisonData, ComparisonMetrics.evaluate, ComparisonMetrics.testAllMetrics", "seyfert/numeric/general.py: pad"]}
{"id": "C138", "title": "Files of earlier versions are read completely, and what is read can be used and saved like data of the current version", "statement": "Given the version it was written with, a file of an earlier version is read exactly if it has all arrays of the format of that version, and the cosmology, spectra and derivatives have the arrays of the file. The writer of old cosmology files makes files which the reader of that version reads. The power spectrum is read if it is asked for. What is read can be used like an object of the current version: its Hubble constant is there, spectra have the key they are stored under, and they can be saved in the current format.", "quantifier": "all contents of the file, all versions of three digits, all cosmologies and spectra, all places of the file written to, all exceptions on the way", "why_tests_cant": "there is no test with old files, and the formats differ in the names of single arrays and attributes: whether every array is found, and which parts get lost, depends on the full content of the file", "anchors": ["seyfert/file_io/retro_comp.py: write_old_cosmo_file", "seyfert/file_io/retro_comp.py: read_v104_cosmo_file", "seyfert/file_io/retro_comp.py: read_v110_cosmo_file", "seyfert/file_io/retro_comp.py: read_v104_cls_file", "seyfert/file_io/retro_comp.py: read_cls_file", "seyfert/file_io/retro_comp.py: read_cosmo_file", "seyfert/file_io/retro_comp.py: read_dcl_file", "seyfert/cosmology/cosmology.py: Cosmology.h", "seyfert/cosmology/kernel_functions.py: KernelFunction.obs_key"]}
{"id": "C139", "title": "Translating a text to TeX replaces exactly the names in it, independent of the order of sets", "statement": "Translating a legend, title or table replaces every name of a probe, of a spectrum and of a cosmological parameter by its TeX form and keeps all else, with the same result in every run of the program. It never fails. In tables gains and losses in percent get their marks, a change of zero is a dash, and partial lines become full lines. Every label of a legend is translated.", "quantifier": "all texts, with and without aliases, all orders in which Python can go through a set of names, all rows of cells and all numbers in them", "why_tests_cant": "the translation is a chain of replacements whose results are translated again, in the order of a set of strings, which changes from run to run; that no replacement touches the result of another one must be shown for all texts", "anchors": ["seyfert/utils/tex_utils.py: TeXTranslator.replaceFisherNamesToTeX", "seyfert/utils/tex_utils.py: TeXTranslator.replaceCosmoParsNamesToTeX", "seyfert/utils/tex_utils.py: TeXTranslator.translateToTeX", "seyfert/utils/tex_utils.py: TeXTranslator.transformRawTeXTable", "seyfert/utils/tex_utils.py: TeXTranslator.translateLegendToTeX"]}
{"id": "C140", "title": "Stopping runs ends all runs and nothing else", "statement": "The program which stops runs ends every running job submitter and orchestrator, by its own process number, and no other process; it does not end itself, and says that there was nothing to stop exactly if there was none.", "quantifier": "all lists of processes with all users, numbers and commands", "why_tests_cant": "the processes are found by a pattern on the text of the process list; which lines it matches depends on names of users, columns and arguments of every process on the machine", "anchors": ["bin/kill_job_submitter"]}
{"id": "C141", "title": "The report on batch jobs tells the failed ones", "statement": "The report on batch jobs looks at the logs of all submitted runs, names every run which has not succeeded, and reports success exactly if all of them have.", "quantifier": "all directories of runs, all logs and their texts", "why_tests_cant": "success is recognised in the text of a log that other programs write and add to, and runs are recognised by names; all texts and histories of a log are possible", "anchors": ["bin/report_batch_jobs: main", "seyfert/main/seyfert_core.py: submit_batch_jobs", "seyfert/main/bsub_utils.py: BsubInterface.submitJob"]}
{"id": "C142", "title": "The integration test runs the versions asked for and restores the repository", "statement": "The integration test makes one run with each of the two versions it is given, refuses versions that do not exist, and leaves the repository on the branch it was on.", "quantifier": "all repositories with their branches and tags, all branches or commits checked out, all versions", "why_tests_cant": "the test changes the repository it runs in; whether the branch is restored depends on the names of branches and on what is checked out at the start", "anchors": ["bin/run_integ_test: do_integration_run", "bin/run_integ_test: main"]}
{"id": "C143", "title": "The runs loaded for a scenario are those of the scenario", "statement": "Loading the workspaces or analyses of a scenario from a directory gives every run of that scenario in the directory, under its number of spectroscopic bins, with or without the subtracted galaxies as asked, and no other run.", "quantifier": "all directories with all entries and in every order of listing, all scenarios, both kinds of runs", "why_tests_cant": "the result depends on the names of all entries and on the order in which the file system lists them, which differs between machines", "anchors": ["seyfert/notebook_helpers/load_helpers.py: load_workspaces_for_scenario", "seyfert/notebook_helpers/load_helpers.py: load_fisher_analyses_for_scenario"]}
{"id": "C144", "title": "Replacing the matrices with the three-dimensional spectrum", "statement": "Replacing the matrices with the three-dimensional spectrum gives every analysis those of four bins in place of its own and leaves all other matrices as they are, or changes nothing if one is missing; afterwards each analysis can be worked on independently of the others.", "quantifier": "all sets of analyses with all their matrices, all later operations on the matrices", "why_tests_cant": "the matrices are shared objects; an effect on another analysis only shows after a later operation in place, over all combinations of analyses and operations", "anchors": ["seyfert/notebook_helpers/load_helpers.py: replace_hybrid_fishers_with_4_bins_equivalents", "seyfert/notebook_helpers/load_helpers.py: invert_fishers_in_all_analyses"]}
{"id": "C145", "title": "The file made for a redshift density is the density described", "statement": "create_h5density writes a file exactly when probe, archive, sky fraction and instrument describe a density and the output is not there; from the file that density is read, with every other file unchanged; a run that fails leaves no file behind and an existing file as it was.", "quantifier": "all arguments, all archives, all states of the file system, all histories of runs", "why_tests_cant": "what a failed run leaves behind and what a second run does to an existing file depends on the history of runs and the point of failure", "anchors": ["bin/create_h5density: main", "seyfert/cosmology/redshift_density.py: H5Density.writeObjectToFile", "seyfert/file_io/hdf5_io.py: AbstractH5FileIO.save"]}
{"id": "C146", "title": "A density file made by the program can be used in a forecast", "statement": "Every file create_h5density completes can be taken up by a forecast: it is read, set up with the parameters of the instrument named, and gives a surface density for each bin.", "quantifier": "all arguments for which the program succeeds, all archives, all numbers of bins", "why_tests_cant": "it is a statement about two programs which communicate by a file, for every content of the file; a test covers one kind of density and one archive", "anchors": ["bin/create_h5density: main", "seyfert/main/cl_core.py: compute_densities", "seyfert/cosmology/redshift_density.py: RedshiftDensity.evaluateSurfaceDensity"]}
{"id": "C147", "title": "The tables of the results show every result asked for with its gain", "statement": "For the matrices asked for, build_tables makes a table in which every result appears, in the order asked for and by number of bins, with the percentage gain in figure of merit over the reference at the same number of bins; the LaTeX table declares as many columns as its lines have, and the sheet gives each column its own width.", "quantifier": "all lists of matrices, all references, all results, all orders in which pandas returns them, all roundings", "why_tests_cant": "whether a row is dropped depends on coincidences between all pairs of results after rounding, and on the order of the rows; a sample has few such pairs", "anchors": ["scripts/build_tables.py: get_sub_table", "scripts/build_tables.py: add_deltafom_column", "seyfert/notebook_helpers/table_helpers.py: write_latex_table", "seyfert/notebook_helpers/table_helpers.py: write_excel_table"]}
{"id": "C148", "title": "A contour plot is of the one analysis asked for and kept under its own name", "statement": "From a collection of results the helpers for contour plots choose the one analysis with the options asked for, with the matrices asked for, labelled with its own run and scenario, and refuse a choice which is not unique; every plot and its ranges are written to files which no other plot uses, and ranges only if asked for; matrices can be chosen by the names they have.", "quantifier": "all collections, all selections, all names of matrices, all options, all pairs of plots", "why_tests_cant": "that a choice is unique and that files of two plots differ are statements about all tables and all pairs of plots", "anchors": ["seyfert/notebook_helpers/contours.py: get_fisher_analysis_for_fishers", "seyfert/notebook_helpers/contours.py: get_fisher_analysis_for_case_subcase", "seyfert/notebook_helpers/contours.py: do_tri_plot", "seyfert/notebook_helpers/misc.py: get_subset_analyses_for_fishers"]}
{"id": "C149", "title": "Bar plots show the errors of the matrices asked for", "statement": "A bar plot shows for each matrix asked for, with the number of bins asked for, its errors unchanged and its figure of merit relative to the largest one shown, which is 1 while all others are at most 1; a figure of two panels has one legend if it is asked for.", "quantifier": "all tables of results, all lists of matrices, all numbers of bins", "why_tests_cant": "the bounds hold for every table; which matrix has the largest figure of merit depends on all rows chosen", "anchors": ["seyfert/notebook_helpers/barplots.py: ErrorBarPlotter.sliceResultsForFishersAndNbins", "seyfert/notebook_helpers/barplots.py: ErrorBarPlotter.doPairErrorBarPlot"]}
{"id": "C150", "title": "A collection of results is complete or as it was", "statement": "The program collecting results writes for both cosmologies and all three treatments of nuisance parameters the two tables of errors and the analyses of the runs found, replacing what was there, and changes nothing else; repeated, or stopped and then repeated, it leaves the same; if it fails or is stopped, the collection of before is left as it was, and no directory mixes results of two collections.", "quantifier": "all runs, all contents of the output directory, all points at which the program fails or is stopped", "why_tests_cant": "ranges over every point of interruption and every earlier content of the directory", "anchors": ["bin/collect_results: main", "seyfert/fisher/results_collector.py: ResultsCollector.collectAndDumpResults"]}
{"id": "C151", "title": "Options given to a program are read back under their names", "statement": "An object holding the options of a program behaves as a record over every history of changes, by attribute or by item: an attribute has the value given last, and is missing if it was deleted or never given. Made from arguments, it has every option of the program: what was given, as a path for directories and configurations whatever they are called and as a number for the step, and nothing for the rest; reading the same arguments again changes nothing.", "quantifier": "all histories of changes, all dictionaries of arguments, all five classes of programs, all names", "why_tests_cant": "ranges over all histories and all dictionaries of arguments; which names are hidden or converted is a statement about every name", "anchors": ["seyfert/base_structs/generic_dict.py: DictLike", "seyfert/config/cmd_line.py: GenericCommandLineArgs.readArgs", "seyfert/config/cmd_line.py: JobSubmitterCommandLineArgs", "seyfert/config/cmd_line.py: MainProgramCommandLineArgs", "seyfert/config/cmd_line.py: ClCLIArgs"]}
{"id": "C152", "title": "A directory of final results has the matrices and tables of one run", "statement": "Over every history of runs of the program for final results in one directory, each with or without overwriting and finished, failed or stopped anywhere: without overwriting no file that is there is changed or lost, and the program comes to its end exactly if everything can be computed and none of its matrices is there; with overwriting it always comes to its end, each of its files then has the new result, and after any number of stopped attempts the outcome is that of a single run. After a run that came to its end the directory has the matrices and tables of that run and nothing else.", "quantifier": "all contents of the directory before, all histories of runs with any results, all points where a run is stopped, all six pairs of cosmology and treatment", "why_tests_cant": "ranges over all histories and crash points; what stays beside new results depends on everything that was there before", "anchors": ["seyfert/fisher/final_results_core.py: create_final_results", "seyfert/fisher/final_results_core.py: create_results_for_cosmology", "seyfert/fisher/fisher_analysis.py: FisherAnalysis.saveFishersToDisk", "seyfert/fisher/fisher_analysis.py: FisherAnalysis.writeAbsoluteAndRelativeMarginalizedErrors", "seyfert/fisher/fisher_matrix.py: FisherMatrix.writeToFile", "seyfert/utils/table_utils.py: write_dataframe_table"]}
{"id": "C153", "title": "The combinations of the shipped list", "statement": "Whatever the matrices of a run are, all combinations of the shipped list are among its final results, each as the signed sum of the matrices it names; without the external matrix exactly those that need it are missing, and nothing else is added. Every name says which observables the matrix is of: no combination counts an observable twice or negatively, nor spectroscopic clustering both by its angular spectrum and by its spectrum in three dimensions. Although some combinations are differences, the final results are produced for each treatment of nuisance parameters if the matrices are positive definite and those from which [GCsp] is subtracted have more information than it; fixing and marginalising keep such an order.", "quantifier": "all matrices, parameters and fixed parameters, all treatments of nuisance parameters, all combinations of the list, and all files of combinations for reading them", "why_tests_cant": "ranges over all matrices; that a difference can be inverted after marginalisation is a fact about all positive definite matrices", "anchors": ["seyfert/data/fishers/a_posteriori_fisher_combs.txt", "seyfert/data/fishers/selected_datavectors.txt", "seyfert/fisher/fisher_utils.py: load_a_posteriori_fisher_comb_names", "seyfert/fisher/final_results_core.py: evaluate_a_posteriori_fisher_combinations", "seyfert/fisher/final_results_core.py: create_results_for_cosmology"]}
{"id": "C154", "title": "The transition matrix", "statement": "For each positive order the transition matrix exists and is determined by being a pseudo-inverse. Its transpose takes the stacked columns of every square matrix to the upper triangle of its symmetric part, so to the upper triangle of the matrix itself if that is symmetric, and to something else in general; it is a left inverse of the duplication matrix, and applying the duplication matrix after it gives the symmetric part.", "quantifier": "all orders, all square real matrices, and all matrices meeting the conditions of a pseudo-inverse", "why_tests_cant": "ranges over all orders and all real matrices", "anchors": ["seyfert/fisher/linalg_tools.py: transition_matrix", "seyfert/fisher/linalg_tools.py: duplication_matrix"]}
{"id": "C155", "title": "The external matrix of spectroscopic clustering in a run", "statement": "The final results of a run use the external matrix of its own scenario, once, and the matrices the run computed, whichever of the two programs for forecasts and the program for final results were called on the run directory, in whatever sequence and stopped at whatever point, and in whatever order the directory is listed. A run whose results are missing can be completed by starting it again, and overwriting gives the results of the present matrices whatever was there before. A forecast that comes to its end has final results.", "quantifier": "all histories of the three programs on a run directory, finished or stopped at any point, all orders of directory listings, all matrices and scenarios", "why_tests_cant": "ranges over histories of several programs with stops at any point, and over orders of directory listings", "anchors": ["seyfert/main/seyfert_core.py: compute_fishers", "seyfert/main/seyfert_core.py: do_forecast", "seyfert/main/task_runners.py: ForecastRunner.evaluateFinalResults", "seyfert/main/task_runners.py: ForecastRunner.writeGCspPkFishersTo", "seyfert/main/task_runners.py: FisherTaskRunner.clearOutput", "seyfert/utils/filesystem_utils.py: get_ist_gcsp_pk_fisher_file", "seyfert/fisher/final_results_core.py: create_final_results"]}
{"id": "C156", "title": "The errors of final results are in the order of what is assumed", "statement": "For every loaded matrix and every sum of loaded matrices, the errors in the final results are never smaller when nuisance parameters are marginalised in each matrix than when they are marginalised in the sum, and never smaller then than when they are fixed; the figure of merit is never larger. A cosmology that fixes more parameters, and a sum of more matrices, never have a larger error or a lower figure of merit. For a difference of two matrices the first two treatments are the other way round.", "quantifier": "all positive definite matrices over the reals with any parameters, all lists of combinations, all sets of fixed parameters, all pairs of treatments", "why_tests_cant": "ranges over all matrices and pairs of configurations; an order that holds for diagonal or equal matrices can fail for others, as it does for differences", "anchors": ["seyfert/fisher/final_results_core.py: create_results_for_cosmology", "seyfert/fisher/fisher_analysis.py: FisherAnalysis.evaluateMarginalizedErrors", "seyfert/fisher/fisher_matrix.py: FisherMatrix.marginalizeNuisance", "seyfert/fisher/fisher_matrix.py: FisherMatrix.fixParameters", "seyfert/fisher/final_results_core.py: evaluate_a_posteriori_fisher_combinations"]}
{"id": "C157", "title": "Less sky and more shot noise never improve a forecast", "statement": "With a fraction of the sky that is k times as large and everything else the same, the Fisher matrix of every data vector is k times as large, every reported error is divided by the square root of k, and the figure of merit is multiplied by k. With more shot noise in any bins, no data vector has more information in any direction of the parameters, no reported error is smaller and the figure of merit is not larger.", "quantifier": "all probes, bins, multipoles, widths, spectra and derivatives whose normalised spectra form positive definite matrices, all data vectors without repetitions, all positive fractions of the sky, all shot noises", "why_tests_cant": "a statement on pairs of surveys of any size, with any correlations between bins; the inverse of the covariance is not monotonic entry by entry", "anchors": ["seyfert/fisher/delta_cl.py: DeltaCl.computeNoise, evaluate", "seyfert/fisher/fisher_evaluator.py: ClCovarianceMatrix.computeCovBlock, FisherEvaluator.computeFisherMatrix", "seyfert/fisher/fisher_analysis.py: FisherAnalysis.evaluateMarginalizedErrors"]}
{"id": "C158", "title": "The matter power spectrum of an object belongs to the code, the settings and the parameters of its last computation", "statement": "The spectra, wave numbers and transfer function which a power spectrum object holds are all those of its last successful computation. They are what the chosen code gives for the parameters and settings at the time of the call, with a row for every redshift of the configuration; with CAMB the ini file in the working directory has the entries of these parameters, otherwise those of the reference file, and CAMB gives the requested sigma8 with it. Earlier computations, other objects, files already in the working directory and the working directory itself have no influence. A computation changes nothing but the spectra of its object and its ini file, and not even the spectra if it raises. The code is the one of the configuration, and an unknown code is refused.", "quantifier": "all histories of making objects, setting their code, parameters and configuration, editing configurations and parameters, writing files and computing spectra; all texts of the reference file, all parameters, all grids of redshifts", "why_tests_cant": "objects share parameters and configurations and keep their solver between calls, so the result could depend on any earlier call or file; and the amplitude is found by a loop around an external code", "anchors": ["seyfert/cosmology/power_spectrum.py: PowerSpectrum.evaluateLinearAndNonLinearPowerSpectra, getResultsFromMatterPowerGenerator", "seyfert/cosmology/boltzmann_solver.py: CAMBBoltzmannSolver, CLASSBoltzmannSolver", "seyfert/cosmology/cosmology.py: Cosmology.evaluatePowerSpectrum"]}
{"id": "C159", "title": "Power spectrum jobs can run at the same time, be stopped and be repeated", "statement": "Jobs which compute power spectra with CAMB at the same time, in whatever order their accesses to files are interleaved, end each with the spectra, or the exception, which it would have alone for its parameters, and with the same ini file. A job which has been stopped at any point, also in the middle of writing its ini file, can be started again and gives the same. The reference file is never changed.", "quantifier": "any number of jobs with any parameters, all schedules of their single accesses to files, all points at which any of them are stopped and started again", "why_tests_cant": "the interleavings of jobs and the points of interruption are unbounded, and the ini file is rewritten in every round of the tuning", "anchors": ["bin/compute_pmm: main", "seyfert/cosmology/boltzmann_solver.py: CAMBBoltzmannSolver.evaluateLinearAndNonLinearPowerSpectra, writeUpdatedCAMBIniFile, finetuneScalarAmpFromSigma8, run, writeDictToIniFile"]}
{"id": "C160", "title": "Spectra of displaced parameters are the same with power spectra computed on the way and read from files", "statement": "The spectra of a displaced parameter can be computed with power spectra which are computed on the way, or with those of the files which the jobs of the run have written. For every step both give the same spectra, those of the parameters of this step, and both leave the parameters as they were.", "quantifier": "all sets of parameters, cosmological and nuisance, all displaced parameters, all lists of steps, all ways in which power spectra and spectra depend on the parameters", "why_tests_cant": "the parameters and the dependence of the spectra on them are arbitrary, and the two ways agree for the usual parameters", "anchors": ["seyfert/main/cl_core.py: compute_cls_variations, load_cosmology", "bin/compute_pmm: main", "seyfert/cosmology/cosmology.py: Cosmology.__init__, checkParameters"]}
{"id": "C161", "title": "The written results of a collector belong together", "statement": "After the results of a collector have been written into a directory, the tables of errors, the matrices and the correlations of each cosmology in it are those of these results. Nothing that is there is replaced without notice, and a writing that was stopped can be completed by starting it again.", "quantifier": "all results, all numbers of cosmologies and matrices, all directories, all histories of starts with the same or other results, stopped after any file", "why_tests_cant": "the histories of starts and the places where they are stopped are unlimited, and one writing into an empty directory shows no fault", "anchors": ["seyfert/fisher/fisher_results.py: FisherResultsCollector.writeResultsAndDoPlots", "seyfert/fisher/fisher_analysis.py: writeMarginalizedErrorsToFile, writeRelativeMarginalizedErrorsToFiles, saveFishersToDisk, writeCorrelationMatricesToFiles", "seyfert/utils/table_utils.py: write_dataframe_table"]}
