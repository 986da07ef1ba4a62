{"claims": [
 {"property": "C01", "status": "proved", "theorems": ["CloudForest.c01_splitter_split", "CloudForest.c01_coded_split", "CloudForest.c01_blocks"], "note": ""},
 {"property": "C02", "status": "proved", "theorems": ["CloudForest.c02_coded_eq_decoded", "CloudForest.c02_decode_name", "CloudForest.c02_stripCodes"], "note": ""},
 {"property": "C03", "status": "proved", "theorems": ["CloudForest.c03_names_only", "CloudForest.c03_unlisted_goes_right"], "note": ""},
 {"property": "C04", "status": "proved", "theorems": ["CloudForest.c04_bijection", "CloudForest.c04_stable"], "note": ""},
 {"property": "C05", "status": "proved", "theorems": ["CloudForest.c05_sortBy", "CloudForest.c05_short_vals_panics"], "note": ""},
 {"property": "C06", "status": "proved", "theorems": ["CloudForest.c06_one_vote_per_case", "CloudForest.c06_weight", "CloudForest.c06_order_irrelevant", "CloudForest.c06_independent"], "note": ""},
 {"property": "C07", "status": "proved", "theorems": ["CloudForest.c07_partition", "CloudForest.c07_votes", "CloudForest.c07_disjoint"], "note": ""},
 {"property": "C08", "status": "proved", "theorems": ["CloudForest.c08_leaf_predictions", "CloudForest.c08_grow"], "note": "c08_leaf_predictions is for any split search that permutes its cases and returns codes of the right type; c08_grow instantiates it with the modelled BestSplitter"},
 {"property": "C09", "status": "proved", "theorems": ["CloudForest.c09_grow", "CloudForest.c09_terminates", "CloudForest.c09_limits"], "note": "c09_grow is about Tree.Grow with BestSplitter and the modelled searches; the other two are for any admissible split search. Infinite values are C47, mTry above the number of candidates C49"},
 {"property": "C10", "status": "proved", "theorems": ["CloudForest.c10_num_search", "CloudForest.c10_near_ties_differ"], "note": ""},
 {"property": "C100", "status": "proved", "theorems": ["CloudForest.c100_features"], "note": "For forests whose features are in the data; else see C102."},
 {"property": "C101", "status": "partial", "theorems": ["CloudForest.c101_splits_partial", "CloudForest.c101_race"], "note": "Proved for one thread; with several a split can be lost."},
 {"property": "C102", "status": "partial", "theorems": ["CloudForest.c102_unknown", "CloudForest.c102_witness", "CloudForest.c102_known_partial"], "note": "False of the code: a missing feature is replaced by the first of the data. Proved for features that are there."},
 {"property": "C103", "status": "partial", "theorems": ["CloudForest.c103_all", "CloudForest.c103_some_partial", "CloudForest.c103_tail_lost"], "note": "Proved for the default and for any number of samples but that of all cases; then false of the code if targets are missing."},
 {"property": "C104", "status": "partial", "theorems": ["CloudForest.c104_classes", "CloudForest.c104_numbers", "CloudForest.c104_boosted", "CloudForest.c104_boosted_witness", "CloudForest.c104_class_boosted"], "note": "Proved for classification and regression; false of the code for gradient boosting, where the out-of-bag prediction is not the model's."},
 {"property": "C105", "status": "partial", "theorems": ["CloudForest.c105_file", "CloudForest.c105_collision"], "note": "The data are proved to be kept, under names marked with the kind; that different features keep different names is false of the code."},
 {"property": "C106", "status": "partial", "theorems": ["CloudForest.c106_anonymous", "CloudForest.c106_unknown_target"], "note": "That nothing is revealed is proved for all pairs of runs; that the target comes first is false of the code if the name is mistyped."},
 {"property": "C107", "status": "partial", "theorems": ["CloudForest.c107_gbt_partial", "CloudForest.c107_adaboost", "CloudForest.c107_library", "CloudForest.c107_adacost"], "note": "Proved for gradient boosting; false of the code for adaptive and cost-sensitive boosting, which growforest cannot run."},
 {"property": "C108", "status": "partial", "theorems": ["CloudForest.c108_used_partial", "CloudForest.c108_ignored"], "note": "False of the code; the combinations that are honoured are characterised."},
 {"property": "C109", "status": "partial", "theorems": ["CloudForest.c109_step_partial", "CloudForest.c109_scale", "CloudForest.c109_unlisted"], "note": "Proved for positive costs and positive error; that only ratios matter, and positive weights for unlisted classes, are false of the code."},
 {"property": "C11", "status": "proved", "theorems": ["CloudForest.c11_exhaustive"], "note": ""},
 {"property": "C110", "status": "partial", "theorems": ["CloudForest.c110_share_partial", "CloudForest.c110_zero", "CloudForest.c110_no_true", "CloudForest.c110_missing"], "note": "Proved if the class True exists, no class is missing and the costs are not all zero; false of the code otherwise."},
 {"property": "C111", "status": "proved", "theorems": ["CloudForest.c111_search", "CloudForest.c111_saved", "CloudForest.c111_file", "CloudForest.c111_growforest"], "note": "For forests grown without missing branches, from strings without marks of the format and numbers printed faithfully; missing branches are C54."},
 {"property": "C112", "status": "partial", "theorems": ["CloudForest.c112_forest_partial", "CloudForest.c112_unknown"], "note": "The forest is the requested one; that cases of unknown target are left out is false of the code."},
 {"property": "C113", "status": "partial", "theorems": ["CloudForest.c113_progress_partial", "CloudForest.c113_zero"], "note": "Proved with -progress; false of the code without it."},
 {"property": "C114", "status": "partial", "theorems": ["CloudForest.c114_mTry", "CloudForest.c114_sizes_partial", "CloudForest.c114_zero"], "note": "Proved except for boosting (-adaboost or -gbt) with fewer than three known cases, where it is false of the code."},
 {"property": "C115", "status": "partial", "theorems": ["CloudForest.c115_known_partial", "CloudForest.c115_impute"], "note": "Proved without -impute; false of the code with it."},
 {"property": "C116", "status": "proved", "theorems": ["CloudForest.c116_only", "CloudForest.c116_any"], "note": "For all random numbers."},
 {"property": "C117", "status": "proved", "theorems": ["CloudForest.c117_table", "CloudForest.c117_crlf", "CloudForest.c117_lineEnd"], "note": ""},
 {"property": "C118", "status": "partial", "theorems": ["CloudForest.c118_scratch_partial", "CloudForest.c118_vet_oob"], "note": "false of the code with -vet and -evaloob together: negation proved; proved for all other options"},
 {"property": "C119", "status": "partial", "theorems": ["CloudForest.c119_run", "CloudForest.c119_limits", "CloudForest.c119_file", "CloudForest.c119_oob_votes_lost"], "note": "trees, limits and file proved; false of the code for the out-of-bag votes: negation proved. One worker (several in C147), no boosting, no -vet with -evaloob"},
 {"property": "C12", "status": "proved", "theorems": ["CloudForest.c12_iterative", "CloudForest.c12_big_same"], "note": ""},
 {"property": "C120", "status": "partial", "theorems": ["CloudForest.c120_sample_fair", "CloudForest.c120_shuffle_fair", "CloudForest.c120_shuffleCases_fair_partial", "CloudForest.c120_bag_not_fair"], "note": "false of the code where ShuffleCases is given a case twice, as in a bag drawn with replacement: negation proved; proved for samples, whole features and different cases"},
 {"property": "C121", "status": "partial", "theorems": ["CloudForest.c121_greedy_partial", "CloudForest.c121_gini_partial", "CloudForest.c121_sse_partial", "CloudForest.c121_last_case", "CloudForest.c121_missing_apart"], "note": "false of the code for thresholds leaving exactly leafSize cases on the right and where only missing values are informative: negations proved; proved for all other divisions, features searched completely and without near ties"},
 {"property": "C122", "status": "partial", "theorems": ["CloudForest.c122_pairs_partial", "CloudForest.c122_not_least"], "note": "false of the code: negation proved; proved what is minimised instead, and a bound on the squared error"},
 {"property": "C123", "status": "partial", "theorems": ["CloudForest.c123_gini_partial", "CloudForest.c123_sse_partial", "CloudForest.c123_kinds", "CloudForest.c123_costs", "CloudForest.c123_costs_large", "CloudForest.c123_repeated", "CloudForest.c123_density"], "note": "false of the code for every target but the plain ones and for repeated cases: negations proved; proved for Gini impurity and the numerical impurity without repeated cases"},
 {"property": "C124", "status": "proved", "theorems": ["CloudForest.c124_order", "CloudForest.c124_monotone", "CloudForest.c124_converted", "CloudForest.c124_class", "CloudForest.c124_mean", "CloudForest.c124_large_unit", "CloudForest.c124_vet_order", "CloudForest.c124_cube"], "note": "negations show that neither condition can be dropped: units too large for constant_cutoff, vetting, new cases in units that are not affine"},
 {"property": "C125", "status": "partial", "theorems": ["CloudForest.c125_rounds", "CloudForest.c125_found_partial", "CloudForest.c125_exact_partial", "CloudForest.c125_grid_partial", "CloudForest.c125_neighbours", "CloudForest.c125_overflow", "CloudForest.c125_small_values"], "note": "False of the code: the midpoint of two neighbouring doubles can be the larger one, so all cases go left (c125_neighbours), the sum of two large values overflows (c125_overflow), and values within 1e-7 count as equal (c125_small_values). Proved for every rounding to nearest: the threshold lies between the two judged groups and parts them unless it falls on a value on the right, and no admissible division was worth more; for multiples of 2^-k (k <= 22) below 2^(52-k) the search in IEEE double precision is the exact search."},
 {"property": "C126", "status": "partial", "theorems": ["CloudForest.c126_error", "CloudForest.c126_sign_partial", "CloudForest.c126_scan_partial", "CloudForest.c126_negative", "CloudForest.c126_divides_equal", "CloudForest.c126_seconds", "CloudForest.c126_drift"], "note": "The error bound holds for all doubles; sign and incremental update only for multiples of a power of two with a bounded sum of squares. In general both are false of the code (c126_negative, c126_divides_equal, c126_seconds, c126_drift)."},
 {"property": "C127", "status": "partial", "theorems": ["CloudForest.c127_error", "CloudForest.c127_outside"], "note": "The error bound holds for all doubles; the mean can leave the range of the targets (c127_outside)."},
 {"property": "C128", "status": "partial", "theorems": ["CloudForest.c128_files_partial", "CloudForest.c128_arff_partial", "CloudForest.c128_names", "CloudForest.c128_onehot", "CloudForest.c128_libsvm_empty", "CloudForest.c128_libsvm_classes", "CloudForest.c128_target_lost", "CloudForest.c128_num", "CloudForest.c128_num_classes"], "note": "Proved for AFM and ARFF files without imputation and numerical encoding. Not all options are honoured by the code: -onehot does nothing (c128_onehot), -writelibsvm writes empty files for three or more classes (c128_libsvm_classes, c128_libsvm_empty), -maxcats can drop the target (c128_target_lost), -num switches stratification off (c128_num, c128_num_classes). Folds without cases make files that cannot be read (C23)."},
 {"property": "C129", "status": "partial", "theorems": ["CloudForest.c129_train_partial", "CloudForest.c129_impute", "CloudForest.c129_libsvm"], "note": "False of the code with -impute and with -writelibsvm (c129_impute, c129_libsvm). Proved for AFM files without imputation, numerical encoding and category limit."},
 {"property": "C13", "status": "proved", "theorems": ["CloudForest.c13_counts", "CloudForest.c13_gini", "CloudForest.c13_sse"], "note": ""},
 {"property": "C130", "status": "partial", "theorems": ["CloudForest.c130_fits_partial", "CloudForest.c130_distinct_partial", "CloudForest.c130_last_case", "CloudForest.c130_xor"], "note": "False of the code (c130_last_case, c130_xor). Proved for the Gini impurity when one number that is tried at every node tells the classes apart, except for leaves on which that number is the same for all cases but one; leaves up to 215 cases."},
 {"property": "C131", "status": "partial", "theorems": ["CloudForest.c131_fits_partial", "CloudForest.c131_last_case", "CloudForest.c131_small"], "note": "False of the code (c131_last_case, c131_small). Proved: the mean squared deviation in a leaf is at most 1e-7, or each tried number is the same for all cases of the leaf but one."},
 {"property": "C132", "status": "partial", "theorems": ["CloudForest.c132_error_partial", "CloudForest.c132_bag", "CloudForest.c132_reused"], "note": "False of the code with bagging and when growforest grows its tree object again (c132_bag, c132_reused). Proved, as an exact account of the decrease, for new trees grown from all cases."},
 {"property": "C133", "status": "partial", "theorems": ["CloudForest.c133_bound_partial", "CloudForest.c133_bag"], "note": "False of the code for trees grown from samples (c133_bag). Proved for trees that predict from all cases, none of them perfect."},
 {"property": "C134", "status": "proved", "theorems": ["CloudForest.c134_gini", "CloudForest.c134_num", "CloudForest.c134_cat", "CloudForest.c134_tie"], "note": "For up to 2^26 cases and 2^24 classes. The values of a numerical feature are doubles whose doubles do not overflow, no two of which the search takes for equal (values within 1e-7: C10, C125). c134_tie shows that rounding decides between divisions of equal worth."},
 {"property": "C135", "status": "partial", "theorems": ["CloudForest.c135_account_partial", "CloudForest.c135_mistakes", "CloudForest.c135_unweighted"], "note": "False of the code: the importance file adds decreases without the number of cases they hold for (c135_unweighted). Proved: weighted by the number of cases they add up to the impurity of the bag less that of the leaves, and this bounds the number of misclassified training cases."},
 {"property": "C136", "status": "partial", "theorems": ["CloudForest.c136_mean_partial", "CloudForest.c136_order", "CloudForest.c136_agree", "CloudForest.c136_schedule"], "note": "False of the code in double precision: three trees that predict 0.1 together predict 0.10000000000000002 (c136_agree) and the order of the votes shows (c136_schedule). Proved: the error is at most (n+1)V/2^52 for n votes of at most V in size, and two orders differ by at most twice that."},
 {"property": "C137", "status": "proved", "theorems": ["CloudForest.c137_classes", "CloudForest.c137_entropy", "CloudForest.c137_numbers", "CloudForest.c137_mean", "CloudForest.c137_tie", "CloudForest.c137_rounded"], "note": "In exact arithmetic. c137_tie: the prediction of a leaf with a tie depends on the numbering; c137_rounded: so does the last digit of the impurity in double precision."},
 {"property": "C138", "status": "proved", "theorems": ["CloudForest.SortBy.c138_steps", "CloudForest.SortBy.c138_depth"], "note": "The counting sort is a second model of the same code; c138_steps includes that both make the same slices."},
 {"property": "C139", "status": "partial", "theorems": ["CloudForest.c139_afm", "CloudForest.c139_sound", "CloudForest.c139_panics", "CloudForest.c139_libsvm", "CloudForest.c139_arff_partial", "CloudForest.c139_arff_short", "CloudForest.c139_truncated"], "note": "False of ARFF: data records shorter than the list of attributes leave empty columns (c139_arff_short). Proved for AFM and libsvm for every text, and for the columns of an ARFF that the records reach."},
 {"property": "C14", "status": "proved", "theorems": ["CloudForest.c14_gini", "CloudForest.c14_invariant", "CloudForest.c14_split"], "note": ""},
 {"property": "C140", "status": "partial", "theorems": ["CloudForest.c140_classes_partial", "CloudForest.c140_numbers_partial", "CloudForest.c140_defaults", "CloudForest.c140_name", "CloudForest.c140_balance"], "note": "False for classes under a name beginning with N, which applyforest takes for numbers (c140_name), and for -balance with a numerical target, which panics (c140_balance). Otherwise proved for the whole way, with any number of workers, vetting, balancing, -entropy and -l1; boosting, -splitmissing and the other impurities are left out."},
 {"property": "C141", "status": "partial", "theorems": ["CloudForest.c141_tables", "CloudForest.c141_ends_partial", "CloudForest.c141_no_threads"], "note": "False without threads: -threads 0 never gets to writing (c141_no_threads). Otherwise proved for all schedules; the splits file, which is written without a lock, is C101."},
 {"property": "C142", "status": "partial", "theorems": ["CloudForest.c142_gain", "CloudForest.c142_equal_density", "CloudForest.c142_halves", "CloudForest.c142_wrong_division"], "note": "False of the code: the sign of the loss is lost, so the gain is positive where the density is the same everywhere (c142_equal_density), and among halves the order of divisions is reversed (c142_halves). c142_gain says exactly what the code computes instead."},
 {"property": "C143", "status": "partial", "theorems": ["CloudForest.c143_named", "CloudForest.c143_occurs_partial", "CloudForest.c143_unlisted", "CloudForest.c143_never_divided"], "note": "False for leaves whose classes are all missing from the map (c143_unlisted). Otherwise proved; for regret if all cases of the leaf are known, see C38."},
 {"property": "C144", "status": "partial", "theorems": ["CloudForest.c144_classes_partial", "CloudForest.c144_numbers_partial", "CloudForest.c144_absent"], "note": "False for files that lack a feature of the forest: the first column is taken for it (c144_absent). Otherwise proved for the whole way from two texts to predictions; boosting, -splitmissing and the other impurities are left out."},
 {"property": "C145", "status": "proved", "theorems": ["CloudForest.c145_range"], "note": "Corollary of C144 for forests without boosting, with exact arithmetic; also where the other file lacks features."},
 {"property": "C146", "status": "partial", "theorems": ["CloudForest.c146_splits", "CloudForest.c146_file_partial", "CloudForest.c146_more_lines", "CloudForest.c146_doubling"], "note": "False for files of trees with missing branches: the right branches are written twice at every level, so the lines can grow exponentially with the splits (c146_more_lines, c146_doubling). The bound on trees is proved for all of them, that on files without -splitmissing."},
 {"property": "C147", "status": "partial", "theorems": ["CloudForest.c147_run_partial", "CloudForest.c147_alone", "CloudForest.c147_one", "CloudForest.c147_more", "CloudForest.c147_none"], "note": "False for more workers than trees (c147_more: as many trees as workers) and for no workers (c147_none: an empty file). Otherwise proved for all schedules. c147_alone is without -test, which makes workers take new tree objects depending on the shared counter."},
 {"property": "C148", "status": "partial", "theorems": ["CloudForest.c148_boosted_partial", "CloudForest.c148_reused", "CloudForest.c148_missing", "CloudForest.c148_mean"], "note": "False without -test, when a tree object is grown again (c148_reused), and for targets with missing values (c148_missing). Otherwise proved for one worker, from the text of the table to the predictions; class boosting and several workers are left out."},
 {"property": "C149", "status": "partial", "theorems": ["CloudForest.c149_boosted_partial", "CloudForest.c149_panics", "CloudForest.c149_absent", "CloudForest.c149_missing", "CloudForest.c149_reused"], "note": "False without -sum, when applyforest panics unless the prior is zero (c149_panics), for a positive class that does not occur (c149_absent), for missing classes (c149_missing) and without -test, when a tree object is grown again (c149_reused). Otherwise proved for one worker, from the text of the table to the predictions, with tanh and log as oracles."},
 {"property": "C15", "status": "partial", "theorems": ["CloudForest.c15_sse_partial", "CloudForest.c15_split_partial", "CloudForest.c15_missing_counted"], "note": "false for missing target values (negation proved): they are counted as zeros; proved without missing values"},
 {"property": "C150", "status": "partial", "theorems": ["CloudForest.c150_ends_partial", "CloudForest.c150_leaves_partial", "CloudForest.c150_spaced", "CloudForest.c150_double_partial", "CloudForest.c150_neighbours_never_end", "CloudForest.c150_neighbours_exact", "CloudForest.c150_overflow_never_ends"], "note": "False for neighbouring numbers of double precision and for values whose sum overflows: growing never ends (c150_neighbours_never_end, c150_overflow_never_ends). Proved when rounding leaves the values apart, which holds for values up to 10^8 that are 10^-6 apart when they differ (c150_spaced, c150_double_partial)."},
 {"property": "C151", "status": "partial", "theorems": ["CloudForest.c151_greedy_partial", "CloudForest.c151_fits_partial", "CloudForest.c151_last_case"], "note": "False for the last case on the right of a threshold (c151_last_case), as in exact numbers, and for values that are too near to each other (c150_neighbours_never_end). Otherwise proved for Gini impurity in double precision, with the bound (k+3)/2^47 for k classes, when all candidates are tried and searched completely and values are 10^-6 apart when they differ; fitting for leaves of up to 215 cases and up to 65536 classes. Other impurities in double precision are left out."},
 {"property": "C152", "status": "partial", "theorems": ["CloudForest.c152_greedy_partial", "CloudForest.c152_fits_partial", "CloudForest.c152_whole_partial", "CloudForest.c152_last_case", "CloudForest.c152_divides_equal"], "note": "False for the last case on the right of a threshold (c152_last_case), as in exact numbers, and for targets whose sums round: nine equal prices of 19999.95 are divided (c152_divides_equal). Otherwise proved for sums of squares in double precision when targets are multiples of 2^-k (k at most 400), A times the number of cases at most 2^25, with the bound N*(A/2^k)^2/2^45, when all candidates are tried and searched completely and values are 10^-6 apart when they differ; leaves of equal targets for whole numbers with N*A at most 2^20."},
 {"property": "C153", "status": "partial", "theorems": ["CloudForest.c153_origin_partial", "CloudForest.c153_origin_l1_partial", "CloudForest.c153_predictions", "CloudForest.c153_unit", "CloudForest.c153_rounding"], "note": "False for other units, because the threshold 1e-7 has none (c153_unit), and in double precision for large origins (c153_rounding). Otherwise proved in exact numbers for squared and absolute errors, without -vet and -evaloob."},
 {"property": "C154", "status": "partial", "theorems": ["CloudForest.c154_numbers_partial", "CloudForest.c154_entropy_partial", "CloudForest.c154_tie"], "note": "False for leaves in which several classes are equally frequent, where the lowest number decides (c154_tie). Otherwise proved for Gini impurity and, over the reals, for entropy, without missing classes, -vet and -evaloob."},
 {"property": "C155", "status": "partial", "theorems": ["CloudForest.c155_telescope_partial", "CloudForest.c155_exact"], "note": "Exact equality is false in double precision (c155_exact). Otherwise proved with the bound (T+1)(T+3)B/2^51 for learning rates between zero and one, targets and predictions of size at most B (2^-900 to 2^900), at most 2^40 cases and trees; products are rounded before they are added, so machines on which Go fuses the two are not covered."},
 {"property": "C156", "status": "partial", "theorems": ["CloudForest.c156_origin_partial", "CloudForest.c156_unit", "CloudForest.c156_rounding"], "note": "False for other units (c156_unit) and in double precision for large origins (c156_rounding). Otherwise proved in exact numbers for finite targets, with all options."},
 {"property": "C157", "status": "partial", "theorems": ["CloudForest.c157_positive_partial", "CloudForest.c157_missing"], "note": "Proved for exact numbers when every case has one of the two classes, without -vet, -evaloob and -splitmissing, with new tree objects. False when classes are missing (c157_missing: such a case counts as negative whichever class is called positive). Double precision is not covered."},
 {"property": "C158", "status": "partial", "theorems": ["CloudForest.c158_probability", "CloudForest.c158_monotone", "CloudForest.c158_residuals", "CloudForest.c158_leaf_partial", "CloudForest.c158_settled", "CloudForest.c158_diverges"], "note": "Probabilities and residuals are proved for all trees. Leaf predictions are proved finite when the probabilities in the leaf are at least 2^-k (k <= 53) away from 0 and 1; without that it is false: a leaf of settled cases predicts NaN (c158_settled), and every leaf kept pure in the positive class gets there within 40/learning-rate trees (c158_diverges, starting from log odds of at least zero). Products are rounded before they are added, so machines on which Go fuses the two are not covered."},
 {"property": "C159", "status": "partial", "theorems": ["CloudForest.c159_account", "CloudForest.c159_error_partial", "CloudForest.c159_diverges"], "note": "The account is proved for every order of steps. That the error does not increase is proved for workers in step when learning rate times workers is at most two; beyond that it is false (c159_diverges). Trees are new objects (as with -test) and grown from all cases; a tree is grown from the residuals of one moment, whereas the code has a data race there. Exact numbers."},
 {"property": "C16", "status": "proved", "theorems": ["CloudForest.c16_three_way"], "note": ""},
 {"property": "C160", "status": "partial", "theorems": ["CloudForest.c160_other_partial", "CloudForest.c160_absent"], "note": "Numerical target without missing values, one worker, new tree objects (-test) or at most two trees, and the other text may leave out values but the features are found by name. False of the code for texts that lack a feature (c160_absent) and where C148 is."},
 {"property": "C161", "status": "partial", "theorems": ["CloudForest.c161_bounded_partial", "CloudForest.c161_beyond"], "note": "Numerical target without missing values, one worker, new tree objects (-test) or at most two trees. c161_beyond: a prediction outside the range of the target."},
 {"property": "C162", "status": "partial", "theorems": ["CloudForest.c162_other_partial", "CloudForest.c162_absent"], "note": "Two classes, none missing, one worker, new tree objects (-test) or at most two trees, applyforest with -sum; tanh and log as oracles. False of the code for texts that lack a feature (c162_absent) and where C149 is."},
 {"property": "C163", "status": "partial", "theorems": ["CloudForest.c163_student_partial", "CloudForest.c163_large_partial", "CloudForest.c163_double"], "note": "With exact arithmetic, root, powers and beta function the probability is within 1e-10 of the tail of Student's distribution for samples of at most 202 values together (c163_student_partial); for samples of any size if t*t is at least a ninth of the degrees of freedom, and then to ten significant digits (c163_large_partial). Missing: larger samples with small t. In double precision false of the code: two samples of 501 values whose tail is below 1e-12 and for which at least 1/2 is reported (c163_double)."},
 {"property": "C164", "status": "partial", "theorems": ["CloudForest.c164_significant", "CloudForest.c164_classes_partial", "CloudForest.c164_numbers_partial", "CloudForest.c164_contrasts_written"], "note": "Selection is proved for all data and options with one worker and positive cutoff, if names occur once (c164_significant). What the lines contain is proved for Gini impurity and squared error without -vet and -evaloob, if numbers have neither missing values nor near ties. False of the code without a cutoff: contrasts are written (c164_contrasts_written). Exact numbers; boosting and several workers left out."},
 {"property": "C165", "status": "partial", "theorems": ["CloudForest.c165_classes_partial", "CloudForest.c165_numbers_partial", "CloudForest.c165_known", "CloudForest.c165_other_side"], "note": "No panic, no refusal, and what is predicted: the plurality, or mean, over the trees for the leaf reached going right wherever the value is missing (c165_classes_partial, c165_numbers_partial), which for cases with all values is the leaf of the tree that was grown (c165_known). False of the code for cases that lack a value: the file does not keep the third branch (c165_other_side). Options as in C140; exact numbers."},
 {"property": "C166", "status": "partial", "theorems": ["CloudForest.c166_classes_partial"], "note": "From the text of the data to the predictions, for each of the three options: no panic, each tree answers with a class of least cost by name, the forest with a class that most trees answer. Missing, as in C140: classes under a name beginning with N if applyforest is not told; also a class constrained by -NP that is not in the data. Exact numbers."},
 {"property": "C167", "status": "partial", "theorems": ["CloudForest.c167_classes_partial", "CloudForest.c167_numbers_partial", "CloudForest.c167_tie", "CloudForest.c167_name", "CloudForest.c167_mode"], "note": "No panic, the lines and the error are proved for both kinds of targets, for the predictions that Tally returns while the error is counted. False of the code when trees tie: what is counted and what is written can differ (c167_tie); equal if one class is ahead for each case. False when the box does not fit the target: a panic (c167_name, c167_mode). Cases that no tree answers count as predicted 0 (in c167_numbers_partial). Exact numbers."},
 {"property": "C168", "status": "partial", "theorems": ["CloudForest.c168_ordinal_partial", "CloudForest.c168_between", "CloudForest.c168_mode", "CloudForest.c168_negative"], "note": "A tree of an ordinal forest answers with a most frequent value of its neighbours, and with -mode the value most trees answer is predicted up to the counting of votes. Without -mode the mean of the answers is predicted, which need not be on the scale (c168_between); with -mode applyforest panics on data that have the target (c168_mode)."},
 {"property": "C169", "status": "partial", "theorems": ["CloudForest.c169_classes_partial", "CloudForest.c169_numbers_partial", "CloudForest.c169_complete", "CloudForest.c169_refused", "CloudForest.c169_target", "CloudForest.c169_never"], "note": "Growing from the filled in table, the answers of the trees for it, and predictions of any text are proved for classes and numbers; complete cases are answered alike. applyforest does not fill in, so cases with missing values are not predicted (c169_refused), and the target is filled in too (c169_target)."},
 {"property": "C17", "status": "proved", "theorems": ["CloudForest.c17_best_splitter"], "note": ""},
 {"property": "C170", "status": "proved", "theorems": ["CloudForest.c170_classes", "CloudForest.c170_numbers", "CloudForest.c170_same", "CloudForest.c170_exchanged", "CloudForest.c170_unlike"], "note": "Growing from the moved table, the answers of its trees and the predictions of any text are proved for classes and numbers; cases of the file are answered alike with -permute alone (c170_same), not with -shuffleRE (c170_unlike, by intention of the option). Not combined with -impute. Exact numbers."},
 {"property": "C171", "status": "partial", "theorems": ["CloudForest.c171_classes_partial", "CloudForest.c171_numbers_partial", "CloudForest.c171_lost", "CloudForest.c171_inside"], "note": "The forest is the one without -oob, and lines and error are proved for the answers that are heard of trees without the case, for both kinds of targets. All answers are heard if no worker grows two trees; otherwise votes of leaves above nodes of older trees are lost (c171_lost). Cases in all bags are counted as wrong, or as predicted 0 (c171_inside). Ties as in C167; numbers with -nobag not covered. Exact numbers."},
 {"property": "C172", "status": "partial", "theorems": ["CloudForest.c172_classes_partial", "CloudForest.c172_numbers_partial", "CloudForest.c172_lost", "CloudForest.c172_error"], "note": "Proved as an equation of both ways for no more trees than workers, for classes and numbers, panics and printed errors included. False of the code for more trees than workers (c172_error); what is counted then is proved for every schedule: one tree is lost and a later one counted twice (c172_lost). Same ties taken on both sides; no boosting, no changes to the data."},
 {"property": "C173", "status": "partial", "theorems": ["CloudForest.c173_classes_partial", "CloudForest.c173_numbers_partial", "CloudForest.c173_text", "CloudForest.c173_root"], "note": "Proved from the text of the data to the lines for one worker, with missing values, for Gini impurity and squared error: same forest as without -importance, and each column computed from the trees written and their bags; the text of the file gives the lines back (c173_text). False of the code for trees that use a feature only at the root, which do not count as using it (c173_root); the columns for trees and depths are proved for uses below the root. Missing: near ties of numbers, entropy and -l1, -vet, -evaloob, several workers. Exact numbers."},
 {"property": "C174", "status": "partial", "theorems": ["CloudForest.c174_mode_partial", "CloudForest.c174_one", "CloudForest.c174_filter", "CloudForest.c174_nan", "CloudForest.c174_tie"], "note": "Proved for values that are not NaN, infinite ones and repeated cases included: the result is a most frequent known value in whatever order the map is met, the same each time if one value is most frequent. False of the code for NaN (c174_nan), for ties, which the order of the map decides, and without a known case, where it is zero (c174_tie)."},
 {"property": "C175", "status": "partial", "theorems": ["CloudForest.c175_zip_partial", "CloudForest.c175_error", "CloudForest.c175_afm", "CloudForest.c175_arff", "CloudForest.c175_libsvm", "CloudForest.c175_packed", "CloudForest.c175_empty"], "note": "Proved: errors exactly for files that cannot be opened; files in each format under the names for it; archives whose first file is an annotated feature matrix. False of the code for archives of ARFF and libsvm files (c175_packed), for archives without files and for ARFF files without data (c175_empty). Not modelled: unpacking and read errors."},
 {"property": "C18", "status": "proved", "theorems": ["CloudForest.c18_constant_stays"], "note": ""},
 {"property": "C19", "status": "proved", "theorems": ["CloudForest.c19_sampleFirstN", "CloudForest.c19_any_sample"], "note": ""},
 {"property": "C20", "status": "proved", "theorems": ["CloudForest.c20_with_replacement", "CloudForest.c20_balanced", "CloudForest.c20_oob", "CloudForest.c20_bagging"], "note": ""},
 {"property": "C21", "status": "proved", "theorems": ["CloudForest.c21_tree", "CloudForest.c21_votes", "CloudForest.c21_votes_grown"], "note": "names without quotes, equals signs, line ends and white space next to a comma or at an end; category names also without colons; numbers through an abstract printer and parser that is assumed faithful on the numbers that occur"},
 {"property": "C22", "status": "partial", "theorems": ["CloudForest.c22_forest_partial", "CloudForest.c22_votes", "CloudForest.c22_concat", "CloudForest.c22_target_lost"], "note": "proved for forests with an intercept or whose first tree carries the forest's target; false of forests without intercept whose trees have no target, as GrowRandomForest makes them: negation proved"},
 {"property": "C23", "status": "partial", "theorems": ["CloudForest.c23_roundtrip_partial", "CloudForest.c23_no_cases", "CloudForest.c23_short_name", "CloudForest.c23_first_label", "CloudForest.c23_quotes"], "note": "proved for at least one case, names of two bytes or more with N: exactly for numbers, a first label that does not look like a feature name, numbers that the abstract printer and parser round-trip, and known values that are no missing-value tokens; the negation is proved for no cases, for short names, for such labels and for values with quotes"},
 {"property": "C24", "status": "partial", "theorems": ["CloudForest.c24_parse", "CloudForest.c24_roundtrip_partial", "CloudForest.c24_numerical_target", "CloudForest.c24_missing_target", "CloudForest.c24_negative_index", "CloudForest.c24_bad_index"], "note": "parsing is proved for every list of well formed lines; the round trip for encoded columns with numbers that the abstract printer and parser round-trip; the kind of numerical targets and missing targets are lost: negations proved"},
 {"property": "C25", "status": "proved", "theorems": ["CloudForest.c25_tally", "CloudForest.c25_order"], "note": "for finite weights; map iteration order is arbitrary"},
 {"property": "C26", "status": "proved", "theorems": ["CloudForest.c26_mean", "CloudForest.c26_order", "CloudForest.c26_sum"], "note": "weights positive for means; zero weights are C51"},
 {"property": "C27", "status": "partial", "theorems": ["CloudForest.c27_linearisable", "CloudForest.c27_num", "CloudForest.c27_num_mean", "CloudForest.c27_sum", "CloudForest.c27_counter", "CloudForest.c27_cat_race", "CloudForest.c27_cat_partial"], "note": "false of CatBallotBox, which enters the category before it locks: negation proved; proved for NumBallotBox, SumBallotBox, SparseCounter and RunningMean, and for CatBallotBox when all categories are known before"},
 {"property": "C28", "status": "proved", "theorems": ["CloudForest.c28_error", "CloudForest.c28_range"], "note": ""},
 {"property": "C29", "status": "proved", "theorems": ["CloudForest.c29_squared_error", "CloudForest.c29_error", "CloudForest.c29_scores"], "note": "cases without votes are C52"},
 {"property": "C30", "status": "partial", "theorems": ["CloudForest.c30_count", "CloudForest.c30_duplicate", "CloudForest.c30_kept_partial"], "note": "number of trees, absence of deadlock and termination proved for every schedule; for the trees kept for testing the negation is proved for every schedule with more trees than workers, and the property otherwise"},
 {"property": "C31", "status": "proved", "theorems": ["CloudForest.c31_shuffleCases_cat", "CloudForest.c31_shuffleCases_num", "CloudForest.c31_shuffle_cat", "CloudForest.c31_shuffle_num", "CloudForest.c31_contrast_cat", "CloudForest.c31_contrast_num", "CloudForest.c31_contrastAll", "CloudForest.c31_addContrasts"], "note": ""},
 {"property": "C32", "status": "proved", "theorems": ["CloudForest.c32_cat", "CloudForest.c32_num", "CloudForest.c32_all_missing"], "note": "numerical: finite known values; arithmetic is exact"},
 {"property": "C33", "status": "partial", "theorems": ["CloudForest.c33_num_partial", "CloudForest.c33_num_flag", "CloudForest.c33_cat_partial", "CloudForest.c33_cat_shared"], "note": "Numerical copies are independent under every program of changes, but lose HasMissing (c33_num_flag, false of the code). Categorical copies are equal, and independent under every program that adds no category; with a new category it is false (c33_cat_shared)."},
 {"property": "C34", "status": "partial", "theorems": ["CloudForest.c34_invariant", "CloudForest.c34_cat_strings_partial", "CloudForest.c34_putStr_token", "CloudForest.c34_num_strings"], "note": "false of PutStr with a missing-value token: negation proved for every token; the rest is proved for every sequence of calls"},
 {"property": "C35", "status": "partial", "theorems": ["CloudForest.c35_indicators", "CloudForest.c35_code", "CloudForest.c35_matrix_partial", "CloudForest.c35_collision"], "note": "proved for features; for matrices proved for distinct names without equals sign, and the negation for a feature called like a column of another"},
 {"property": "C36", "status": "proved", "theorems": ["CloudForest.c36_telescope"], "note": "for at least one case, finite values, a learning rate that is not negative, and trees that do not split on the target; exact arithmetic"},
 {"property": "C37", "status": "proved", "theorems": ["CloudForest.c37_step", "CloudForest.c37_rounds", "CloudForest.realExpLog_lawful"], "note": "for any exp and log with the listed laws, which the real functions have; every round with positive error"},
 {"property": "C38", "status": "partial", "theorems": ["CloudForest.c38_cat", "CloudForest.c38_num", "CloudForest.c38_wrf", "CloudForest.c38_regret_partial", "CloudForest.c38_regret_missing", "CloudForest.c38_ada_plain_mode"], "note": "proved for plain and weighted targets, and for regret without missing cases; negations proved for regret with missing cases, which count as category 0, and for AdaBoost, which predicts the plain mode"},
 {"property": "C39", "status": "partial", "theorems": ["CloudForest.c39_flat_partial", "CloudForest.c39_binary_only", "CloudForest.c39_category_lost", "CloudForest.c39_missing_lost"], "note": "Proved for the shape, features, thresholds, counts and depth of every binary tree. False for categorical splits and missing branches, which have no entry."},
 {"property": "C40", "status": "partial", "theorems": ["CloudForest.c40_unstratified", "CloudForest.c40_stratified", "CloudForest.c40_train", "CloudForest.c40_complement_partial", "CloudForest.c40_leftover", "CloudForest.c40_unclassed"], "note": "Everything is proved except that the training set is the complement of the test set; that holds if the folds divide the cases (c40_complement_partial) and is false otherwise (c40_leftover) and for missing targets (c40_unclassed)."},
 {"property": "C41", "status": "proved", "theorems": ["CloudForest.c41_entropy", "CloudForest.c41_incremental"], "note": "over the real numbers, natural logarithm"},
 {"property": "C42", "status": "partial", "theorems": ["CloudForest.c42_regrown_loses_votes", "CloudForest.c42_pruned_partial"], "note": "false of the code: negation proved; what holds after pruning is proved"},
 {"property": "C43", "status": "partial", "theorems": ["CloudForest.c43_parse", "CloudForest.c43_contrasts", "CloudForest.c43_contrastAll", "CloudForest.c43_strip", "CloudForest.c43_strip_target", "CloudForest.c43_sequence_partial", "CloudForest.c43_misplaced"], "note": "proved for every sequence in which encoded columns have distinct names (ParseAFM is the parser); false after AddContrasts has copied a feature twice: negation proved"},
 {"property": "C44", "status": "partial", "theorems": ["CloudForest.c44_integer_partial", "CloudForest.c44_range", "CloudForest.c44_octal", "CloudForest.c44_fraction", "CloudForest.c44_error"], "note": "proved for integers without leading zeros, fractions and errors; false for leading zeros, read as octal: negation proved"},
 {"property": "C45", "status": "partial", "theorems": ["CloudForest.c45_empty_missing_vote", "CloudForest.c45_known_cases_partial"], "note": "false of the code: negation proved; the part for cases with known values is proved"},
 {"property": "C46", "status": "partial", "theorems": ["CloudForest.c46_gini_uninformative_partial", "CloudForest.c46_sse_uninformative"], "note": "true for categorical targets; for numerical targets the negation is proved"},
 {"property": "C47", "status": "partial", "theorems": ["CloudForest.c47_infinite_threshold", "CloudForest.c47_grow_diverges", "CloudForest.c47_finite_partial"], "note": "false for infinite values: negation proved, and growing a tree on such data does not stop; proved for finite values"},
 {"property": "C48", "status": "partial", "theorems": ["CloudForest.c48_random_constant", "CloudForest.c48_exhaustive_partial"], "note": "false for random search: negation proved; proved for exhaustive searches"},
 {"property": "C49", "status": "partial", "theorems": ["CloudForest.c49_mTry_panics", "CloudForest.c49_few_tries_partial"], "note": "false of the code when mTry exceeds the number of candidates: negation proved; proved for mTry up to that number"},
 {"property": "C50", "status": "partial", "theorems": ["CloudForest.c50_empty_combination_panics", "CloudForest.c50_secondary_partial"], "note": "false of the code: negation proved; proved when every combination of classes has a case"},
 {"property": "C51", "status": "partial", "theorems": ["CloudForest.c51_zero_weight_nan", "CloudForest.c51_later_zeros_partial"], "note": "false of NumBallotBox: negation proved; proved when the first number voted for a case has positive weight. CatBallotBox and SumBallotBox: c25_tally and c26_sum allow zero weights"},
 {"property": "C52", "status": "partial", "theorems": ["CloudForest.c52_unvoted_counted", "CloudForest.c52_squared_error_partial"], "note": "false of the code: negation proved; the exact value is proved for all votes of positive weight"},
 {"property": "C53", "status": "partial", "theorems": ["CloudForest.c53_hangs", "CloudForest.c53_partial"], "note": "false of the code: negation proved for every schedule; holds if no weight is infinite"},
 {"property": "C54", "status": "partial", "theorems": ["CloudForest.c54_missing_lost", "CloudForest.c54_missing_partial"], "note": "false of the code: negation proved; for every tree it is proved what is read instead"},
 {"property": "C55", "status": "partial", "theorems": ["CloudForest.c55_error_swallowed", "CloudForest.c55_error_partial"], "note": "false of ReadForest: negation proved; ReadTree reports nodes outside of trees, ReadForest an empty file and a wrong first character"},
 {"property": "C56", "status": "partial", "theorems": ["CloudForest.c56_nan_known", "CloudForest.c56_missing_partial"], "note": "false of the code: negation proved; tokens that ParseFloat rejects are missing in both"},
 {"property": "C57", "status": "partial", "theorems": ["CloudForest.c57_numbers", "CloudForest.c57_values_partial", "CloudForest.c43_strip_target"], "note": "false of the code: negation proved for every feature and category; that cases read as the number of their category is proved"},
 {"property": "C58", "status": "partial", "theorems": ["CloudForest.c58_dropped", "CloudForest.c58_indicators_partial"], "note": "false for features with at most two categories, which are dropped: negation proved; proved for more than two"},
 {"property": "C59", "status": "partial", "theorems": ["CloudForest.c59_roundtrip_partial", "CloudForest.c59_percent"], "note": "proved for names without spaces, braces and the like, any values (quotes and commas included) without line ends, and first values that do not begin with a comment character; for those the negation is proved"},
 {"property": "C60", "status": "partial", "theorems": ["CloudForest.c60_lines_partial", "CloudForest.c60_last_line"], "note": "false for every text whose last line has no line end: negation proved; every full line is read"},
 {"property": "C61", "status": "partial", "theorems": ["CloudForest.c61_imputed", "CloudForest.c61_unchanged_partial"], "note": "false of WriteLibSvmCases: negation proved for every matrix; proved for matrices without missing values. The other writers are functions of the matrix in the model and return none"},
 {"property": "C62", "status": "partial", "theorems": ["CloudForest.c62_marks_cleared", "CloudForest.c62_prior", "CloudForest.c62_known_partial"], "note": "false of the code: negation proved; proved for targets without missing values"},
 {"property": "C63", "status": "partial", "theorems": ["CloudForest.c63_perfect_tree"], "note": "false of the code for every target and every partition into pure leaves: negation proved. growforest stops boosting on the infinite tree weight, so the perfect tree itself is lost"},
 {"property": "C64", "status": "partial", "theorems": ["CloudForest.c64_plain", "CloudForest.c64_oob_gini", "CloudForest.c64_vet", "CloudForest.c64_one_sided", "CloudForest.c64_parent_impurity"], "note": "proved without options, for out-of-bag evaluation of class targets when neither side is empty, and for vetting on the node's cases; false when a side is empty and with both options: negations proved"},
 {"property": "C65", "status": "proved", "theorems": ["CloudForest.c65_constant_iff"], "note": ""},
 {"property": "C66", "status": "proved", "theorems": ["CloudForest.c66_information_gain"], "note": "over the real numbers"},
 {"property": "C67", "status": "partial", "theorems": ["CloudForest.c67_counts_partial", "CloudForest.c67_ada_partial", "CloudForest.c67_hdist_partial", "CloudForest.c67_grad_partial", "CloudForest.c67_dentropy"], "note": "false of DEntropyTarget: negation proved with the costs its constructor makes; proved for the others"},
 {"property": "C68", "status": "partial", "theorems": ["CloudForest.c68_regret_partial", "CloudForest.c68_split", "CloudForest.c68_half"], "note": "the impurity is half of the average cost: negation proved; that it is that half, and that no division increases it, is proved"},
 {"property": "C69", "status": "proved", "theorems": ["CloudForest.c69_score", "CloudForest.c69_search"], "note": "finite values, exact arithmetic; the search for numerical features without near ties"},
 {"property": "C70", "status": "partial", "theorems": ["CloudForest.c70_score_partial", "CloudForest.c70_one_class", "CloudForest.c70_not_hellinger", "CloudForest.c70_predict"], "note": "the square roots are missing in the code, and divisions are ranked differently: negation proved; the bounds and their cases of equality are proved for the score as it is"},
 {"property": "C71", "status": "partial", "theorems": ["CloudForest.c71_wrf_partial", "CloudForest.c71_increase"], "note": "false that divisions never increase it: negation proved; the rest is proved"},
 {"property": "C72", "status": "proved", "theorems": ["CloudForest.c72_np"], "note": ""},
 {"property": "C73", "status": "partial", "theorems": ["CloudForest.c73_trans_partial", "CloudForest.c73_positive_beta"], "note": "proved for Beta at most 0 (the default is 0); false for positive Beta: negation proved"},
 {"property": "C74", "status": "partial", "theorems": ["CloudForest.c74_hdist", "CloudForest.c74_grad_partial", "CloudForest.c74_grad_lost"], "note": "proved for the Hellinger target; for gradient boosting proved if the target values of the missing cases differ, and the negation if they do not"},
 {"property": "C75", "status": "partial", "theorems": ["CloudForest.c75_ada_partial", "CloudForest.c75_ada_increase"], "note": "false for unequal weights: negation proved; proved for equal weights"},
 {"property": "C76", "status": "partial", "theorems": ["CloudForest.c76_values_partial", "CloudForest.c76_shared_marks"], "note": "False of the code: the missing marks are shared (c76_shared_marks). Categories and values are not."},
 {"property": "C77", "status": "partial", "theorems": ["CloudForest.c77_impurity_partial", "CloudForest.c77_not_least"], "note": "The impurity is proved to be the error of the prediction, at most twice the least one, and zero exactly for equal values. That it is the least is false (c77_not_least)."},
 {"property": "C78", "status": "partial", "theorems": ["CloudForest.c78_l1_partial", "CloudForest.c78_l1_missing_partial", "CloudForest.c78_l1_increase", "CloudForest.c78_ordinal_increase"], "note": "False of the code (c78_l1_increase, c78_ordinal_increase). For absolute error without missing values the impurity at most doubles."},
 {"property": "C79", "status": "proved", "theorems": ["CloudForest.c79_ordinal"], "note": ""},
 {"property": "C80", "status": "partial", "theorems": ["CloudForest.c80_step_partial", "CloudForest.c80_rounds_partial", "CloudForest.c80_perfect"], "note": "Proved whenever some leaf has two different values. False for a tree without error (c80_perfect)."},
 {"property": "C81", "status": "proved", "theorems": ["CloudForest.c81_rounds"], "note": "Over the reals."},
 {"property": "C82", "status": "partial", "theorems": ["CloudForest.c82_start", "CloudForest.c82_newton", "CloudForest.c82_one_class"], "note": "Proved if both classes occur; false otherwise (c82_one_class)."},
 {"property": "C83", "status": "partial", "theorems": ["CloudForest.c83_leaf_partial", "CloudForest.c83_less_likely"], "note": "False of the code for learning rate one (c83_less_likely); proved for each leaf up to an explicit learning rate."},
 {"property": "C84", "status": "partial", "theorems": ["CloudForest.c84_known_partial", "CloudForest.c84_marks_cleared", "CloudForest.c84_counted_negative"], "note": "False of the code (c84_marks_cleared, c84_counted_negative); proved without missing classes."},
 {"property": "C85", "status": "partial", "theorems": ["CloudForest.c85_cat_partial", "CloudForest.c85_num_zero"], "note": "Proved for categorical features; false for numerical ones, whose span is always zero."},
 {"property": "C86", "status": "partial", "theorems": ["CloudForest.c86_categorical_partial", "CloudForest.c86_numeric"], "note": "Proved for categorical features; false as soon as one is numerical."},
 {"property": "C87", "status": "partial", "theorems": ["CloudForest.c87_supervised_partial", "CloudForest.c87_density_partial", "CloudForest.c87_numeric_ignored", "CloudForest.c87_combined_partial"], "note": "Proved for alpha zero and for categorical features; numerical features are ignored."},
 {"property": "C88", "status": "partial", "theorems": ["CloudForest.c88_jungle_partial", "CloudForest.c88_joined_leaf", "CloudForest.gini_neverWorse", "CloudForest.sse_neverWorse", "CloudForest.entropy_neverWorse"], "note": "False of the code for targets that may prefer joined nodes, such as absolute error (c88_joined_leaf): the joined leaf forgets the cases of one of its nodes. Proved for targets that divisions do not make worse, which covers Gini, entropy and sum of squares."},
 {"property": "C89", "status": "partial", "theorems": ["CloudForest.c89_best_partner_partial", "CloudForest.c89_never_joined"], "note": "False of the code: with Gini, entropy and sum of squares no nodes are ever joined (c89_never_joined). Proved that where joins do gain, the best is taken."},
 {"property": "C90", "status": "proved", "theorems": ["CloudForest.c90_levels"], "note": ""},
 {"property": "C91", "status": "partial", "theorems": ["CloudForest.c91_same_tree", "CloudForest.c91_importance_partial", "CloudForest.c91_any_order"], "note": "Proved for exact arithmetic, no near ties, impurities averaged over the parts, and neither -vet nor -evaloob."},
 {"property": "C92", "status": "partial", "theorems": ["CloudForest.c92_below_root_partial", "CloudForest.c92_root_not_counted", "CloudForest.c92_root_overwritten"], "note": "False of the code for features used at a root (two concrete runs). Proved for features used below roots only."},
 {"property": "C93", "status": "partial", "theorems": ["CloudForest.c93_candidates_partial", "CloudForest.c93_splits", "CloudForest.c93_twin_remains", "CloudForest.c93_target_listed", "CloudForest.c93_no_tries"], "note": "False of the code for repeated names and for the count if the file lists the target. Otherwise proved."},
 {"property": "C94", "status": "partial", "theorems": ["CloudForest.c94_counts_partial", "CloudForest.c94_rates_partial", "CloudForest.c94_not_precision", "CloudForest.c94_unseen_label", "CloudForest.c94_missing_label"], "note": "False of the code: the precision is one minus the precision, unseen labels panic, missing labels are miscounted. Counts and the other rates are proved for known labels."},
 {"property": "C95", "status": "partial", "theorems": ["CloudForest.c95_mean_var", "CloudForest.c95_welch_partial", "CloudForest.c95_exchange", "CloudForest.c95_direction", "CloudForest.c95_two_degrees_partial"], "note": "t and degrees of freedom proved for samples of at least two values with some variance; the probability proved for two degrees of freedom and small t, over any field; that it is the tail of the distribution, over the reals, is C163."},
 {"property": "C96", "status": "partial", "theorems": ["CloudForest.c96_setup", "CloudForest.c96_selection", "CloudForest.c96_one_permutation", "CloudForest.c96_constant_scores"], "note": "The selection by p-value is proved; false of the code where the p-value is NaN: one permutation, or scores without variance."},
 {"property": "C97", "status": "partial", "theorems": ["CloudForest.c97_classes", "CloudForest.c97_mean_partial", "CloudForest.c97_sum", "CloudForest.c97_expit_skipped", "CloudForest.c97_name", "CloudForest.c97_error", "CloudForest.c97_error_witness"], "note": "Predictions proved; false of the code: -expit is ignored without -sum and intercept, classes under a name beginning with N become NA, the error ignores the intercept and is always 1 with -sum."},
 {"property": "C98", "status": "proved", "theorems": ["CloudForest.c98_votes"], "note": ""},
 {"property": "C99", "status": "proved", "theorems": ["CloudForest.c99_pairs", "CloudForest.c99_symmetric"], "note": "Any order of the calls; that calls of several threads are some order is c27_counter."}
]}
