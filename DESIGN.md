# Design of the CloudForest model

Written before the proofs and updated as they grow. Properties are in
`properties.jsonl`; the status of each is in `MANIFEST.json`.

## How the code is modelled

* **Layout.** `lean/Verif/Model/*.lean` holds definitions transcribed from the Go
  code, each citing file and lines. `lean/Verif/Spec/*.lean` holds small
  specifications that mention no model helper. `lean/Verif/Lemmas/*.lean` holds
  helper lemmas. `lean/Verif/Props/*.lean` holds the property theorems, each with
  an `example` showing that a concrete case meets its hypotheses.
* **float64.** `XF K` = NaN, +Inf, -Inf, or an exact element of an ordered field
  `K` (`Model/XF.lean`). Comparison with NaN is false, 0/0 is NaN, x/0 is an
  infinity. Rounding and overflow are modelled in C125–C127, C134 and C136
  only. Theorems are
  stated for every linearly ordered field `K` (rationals and reals included), so
  a claim never relies on a totalised `x/0 = 0`.
* **int.** `Nat` or `Int`; overflow is not modelled. Bit codes are `Nat` with
  `testBit` (codes are used for at most 30 categories as int, any number as
  big.Int).
* **Slices.** Lists or arrays. A read or write outside the bounds is the value
  `none` (a panic). Functions that rewrite a caller's slice return the new
  contents; where two slices share storage and that matters, the shared storage
  is modelled explicitly (Copy, StripCodes, PutStr on copies).
* **Maps.** `List`-backed association maps or functions; iteration order is an
  arbitrary permutation of the entries, universally quantified.
* **Randomness.** `math/rand` is an oracle: an arbitrary function giving the k-th
  draw, reduced into range; theorems hold for every oracle. `Intn(0)` panics.
* **Loops.** Structural or well-founded recursion with a proved measure. Where
  termination is itself the claim, fuel is used and the theorem says that the
  fuel never runs out.
* **Goroutines.** Explicit step relations over shared state with a mutex; the
  theorems quantify over all schedules.
* **Parsing and printing numbers.** `strconv.ParseFloat` and `%v` are parameters
  with an explicit round-trip hypothesis.

## Per property

| id | model and proof |
|----|-----------------|
| C01 | The in-place loop over an array with indices `lastleft`, `lastright`, `i`; invariant over the three blocks; measure `2*lastright - i - lastleft`. |
| C02 | Coded `goesLeft` as bit test, decoded as membership of the category name; equality from the CatMap bijection invariant; lifted to trees by induction. |
| C03 | Equality of the `goesLeft` predicates, then C01's characterisation of the blocks. |
| C04 | CatMap as (map, list); invariant by induction over call sequences. |
| C05 | All of sortby.go (insertion, heap, quick, ninther, depth limit) over two arrays with checked access; "only common swaps" closure for the permutation; loop invariants of doPivot and siftDown for order. |
| C06 | Recurse as structural recursion on the tree calling the C01 loop; specification: per-case walk; equality of vote multisets. |
| C07 | Same recursion with a different accumulator. |
| C08 | Grow as fuelled recursion with an abstract BestSplitter decision; equality of case lists delivered to leaves by Grow and by Recurse. |
| C09 | Measure = number of cases, for any admissible split search (`c09_terminates`, `c09_limits`); `c09_grow` discharges admissibility for `BestSplitter` over the modelled searches (`Lemmas/Splitter*.lean`). |
| C10 | BestNumSplit's loop with an abstract target state; invariant "best over the evaluated prefix". Needs the no-near-tie hypothesis; the negation without it is proved on a witness. |
| C11 | BestCatSplit's loop over codes 1..2^(k-1)-1; invariant "best over the codes seen"; complement symmetry. |
| C12 | The greedy loop; invariant "best code has this gain and is admissible". |
| C13 | Counters / sums as state; refinement to the from-scratch value. |
| C14 | Algebra over the ordered field. |
| C15 | Algebra over the ordered field. |
| C16 | Algebra over the ordered field. |
| C17 | `Model/Splitter.lean`: the sampling loop as a fuelled loop over an abstract feature evaluator, with a ghost log of evaluated features; invariant `DrawInv` (sampled prefix, constants suffix, best so far). Covers force, vet, evaloob, extraRandom. |
| C18 | Monotonicity of min/max and of class counts under sublists. |
| C19 | `Model/Sampling.lean`: the loop of SampleFirstN with oracle draws; distinct, in range, and every sample is reached by some draws. |
| C20 | `Model/Sampling.lean`: bagging loops, balanced sampler, out of bag marks; membership by fold invariants. |
| C21 | `Model/Text.lean`, `Model/Sf.lean`: writer and reader as functions on character lists, line by line. Round trip by: a line of fields parses to its fields (`parseSfLine_line`), nodes inserted in the order written rebuild the tree (`rebuilds`), votes of equal trees are equal. Number printing and parsing is a parameter (`NumText`), required to be faithful on occurring values. |
| C22 | As C21, by induction over the trees; `readAllTrees` (spec) calls `ReadTree` until it reports the end. |
| C23 | `Model/Matrix.lean`: `WriteCases`, the csv records, `ParseFeature`, `ParseAFM` on character lists. Records written are the records read (`csvRecords_written`); appending the written cells rebuilds each feature (`parseFeature_written`). Spec: `FeatureMatrix.Writable`, `Feature.SameOn`. |
| C24 | `Model/Libsvm.lean`: the parser as a fold over full lines, with padding; closed form of the matrix after any list of lines (`parseLibSVM_lines`, invariant `AfterLines`). Spec: `LibLine.In` (a line of text contains target and entries). The round trip composes the writer's lines with the closed form. |
| C25 | `Model/Ballot.lean`; invariant of the vote maps over any votes, any iteration order of the map. |
| C26 | Weighted mean invariant of `RunningMean`; permutation invariance of the sums. |
| C27 | Step semantics with mutex; linearisation; commutativity. Witness: CatBallotBox looks its category up outside the lock. |
| C28 | Loop invariant on the two count arrays, then algebra; NaN for absent classes by evaluation. |
| C29 | Loop invariants, then algebra. Scores of perfect and of constant predictions. |
| C30 | Step semantics of the worker loop; counting invariant. Witness for the duplicated tree. |
| C31 | `Model/Shuffle.lean`: Fisher-Yates with oracle draws; permutation of (value, missing) pairs; every permutation of the values is reached by some draws. |
| C32 | `Model/Values.lean`; `Modei` and `Mean` skip missing cases, which is a fold over the known ones (`foldlM_known`); the loop pointwise (`imputeLoop_spec`). |
| C33 | Memory with slices, shared arrays, capacities and hash maps (`Model/Heap.lean`). Each change to a feature is shown to refine the change to a value (`exec_spec`) and to touch only its own arrays (`Step`); `runPair_spec` lifts this to programs on two features. Not modelled: slices that do not start at the front of their array; the single assignments inside `Shuffle` and `ImputeMissing` are made at once. |
| C34 | `Model/Values.lean`: invariant `Consistent` over every sequence of calls; refinement of features to columns of strings (`Spec/Values.lean`); negation for PutStr with a missing-value token. |
| C35 | `encodeToNum_gt`/`_le` give the columns in closed form; `encodeLoop_eq` reduces the matrix loop to adding columns one by one, with an invariant on the map (`EncodeState.Good`). |
| C36 | `Model/Boost.lean`: the target, `Update`, `Boost`, growing in rounds with any trees, and `applyforest -sum`. Invariant: after every round the stored residual is target minus prior minus the learning rate times the sum of the tree values (`boost_withValues`), and the sum box holds the same sum (`castAll_finList`). Trees must not split on the target (`Node.Avoids`). |
| C37 | `adaBoost` in closed form: each weight times a product of factors over the leaves, divided by the sum (`adaBoost_eq`). `exp` and `log` are parameters with the laws of `ExpLog.Lawful`; `realExpLog_lawful` shows that the real functions have them. Rounds by induction. |
| C38 | Largest count by `argmax_spec`, mean minimises squares by expanding the square around it; weighted targets by `argmaxX_spec`, cost as total weight minus the predicted category's (`costOf_eq`). |
| C39 | Closed form of the entries (`flatList`), then reading them back by induction on the tree. |
| C40 | The shuffle only permutes (C19), the blocks are consecutive parts of it; stratified folds per class through `newBalancedSampler_eq`. |
| C41 | Over the reals with `Real.log` (`realLog` adds Go's values at the edges); `Real.negMulLog` for sign and zeros; the update is C13 for any function of the counts. |
| C42 | Grow over a tree with stale children; negation on a witness, theorem for fresh trees. |
| C43 | `FeatureMatrix.Indexed` (spec) as an invariant of every operation; `Built` is the inductive set of matrices that sequences of operations build. |
| C44 | `Model/Options.lean`: integers with sign, base prefixes and range check; the decimal fraction through the abstract number parser; ceiling of Mathlib. Digits by induction. Negation by evaluation. |
| C45 | As C08; negation on a witness, theorem for cases known on their way. |
| C46 | Algebra on top of C14/C15; for numerical targets the negation on a witness. |
| C47 | C10's search on `XF` values; negation by evaluation, finite case from C10's lemma. |
| C48 | As C11/C18; negation by evaluation with a constant random stream. |
| C49 | `BestSplitter` on a matrix with one candidate and mTry 2, by evaluation; C17 for small mTry. |
| C50 | The sampler on two features with an empty combination, by evaluation; theorem when all combinations occur. |
| C51 | NaN absorbs: induction over the later votes; theorem from C26's invariant. |
| C52 | Evaluation; exact error for all votes from C26 and C29. |
| C53 | As C30, with boosting as an arbitrary flag per grown tree; counting invariant on stopped workers. |
| C54 | Evaluation for the negation; `back_same` for what is read instead. |
| C55 | Evaluation of the model on two texts; one-step unfolding for the rest. |
| C56 | One-step unfolding, with what ParseFloat does on the token as hypothesis. |
| C57 | Closed form of the stripped feature. |
| C58 | `oneHot_gt` in closed form; induction over the features for the negation. |
| C59 | `Model/Libsvm.lean`: header lines, `csv.Reader` with comment character, case-insensitive keywords. Spec: `FeatureMatrix.ArffWritable`, `Feature.SameOn`. Header attributes rebuild empty features (`arffHeader_attributes`), rows rebuild the data (`loadCases_rows`). |
| C60 | Counting invariant of the line loop; `splitC` of a text with a last line without line end. |
| C61 | The writer imputes the features in place and gives them back (`writeLibSvmCases_after`); closed form of imputation. |
| C62 | Closed form of the target after `NewGradBoostTarget`; negation for every target with a missing value. |
| C63 | Fold over pure leaves: all weights zero, then 0/0. Negation for every such partition. |
| C64 | `evalFeature` unfolded, with C01 for the division of the out-of-bag cases and C14 for their impurity. Negations by evaluation. |
| C65 | From the sorted values (C05). |
| C66 | `entropy_superadd`: concavity of `negMulLog` per class; `entropy_le_log`: `log x ≤ x - 1`. |
| C67 | Count targets by C13; AdaBoost and AdaCost by `case_step`, impurities that look at the cases; distance and gradient targets by closed forms. `DEntropyTarget`: zero costs make every update zero (`dEntropy_zero`). |
| C68 | `regretFromCounts_eq`: the predicted category is cheapest, and `t` is counted twice. A division by the costs of the parent's prediction. |
| C69 | `fScore_eq`; the search is C10 for `gradLaws`. |
| C70 | Algebra; the negation compares two divisions with rational square roots. |
| C71 | As a sum of `a(1-a)` over fractions of weight; negation by evaluation. |
| C72 | `argmaxX_range` on the corrected counts. |
| C73 | `argmaxX_spec`. |
| C74 | `score_scaled` from the search lemma behind C16; negation by evaluation. |
| C75 | With equal weights the predicted category misclassifies least; negation by evaluation. |
| C76 | Changes to a numerical feature do not touch arrays of integers or strings, nor hash maps; the negation by evaluation. |
| C77 | Error sums as fold lemmas; twice the least error by the triangle inequality; the negation by evaluation. |
| C78 | The factor two from C77 on each side; negations by evaluation. |
| C79 | The counters of the loop are the numbers of cases of each whole value; a most frequent one by the argmax lemma of C32. |
| C80 | Each round in closed form for leaves without common cases, `exp` and `log` by the laws of C37; rounds by induction. The negation by evaluation with `log` of infinity and `exp` of NaN. `Boost` of this target lacks the second argument of `BoostingTarget`, so growforest never calls it; it is modelled as it stands. |
| C81 | One state function of the log odds is kept by every update; votes as in C36. Over the reals, with tanh and log as oracles that are the real functions on finite numbers. |
| C82 | The logistic function from tanh; derivatives of the likelihood with Mathlib's calculus; the negation for one class by evaluation. |
| C83 | The likelihood is above a parabola because p(1 - p) is at most 1/4; the negation with 20 cases and bounds on e. |
| C84 | Induction over the marking loop; the prior of the witness by evaluation with any log. |
| C85 | The loop counts a growing set of categories; that `first` is never made false by induction. |
| C86 | Products by induction; +Inf is kept by dividing by zero or a positive number. |
| C87 | The product by induction, numerical features give the factor one. Only a categorical target with Gini impurity is modelled. |
| C88 | `GrowJungle` is modelled with nodes at addresses (`Verif.Model.Jungle`), its search is `bestSplitter`. `c88_jungle_partial`: for every target that divisions do not make worse (shown for Gini, sum of squares and entropy: `gini_neverWorse`, `sse_neverWorse`, `entropy_neverWorse`) it returns, and leaves, leaf sizes and depth are as for `Tree.Grow`. Negation for L1: `c88_joined_leaf`. Importance bookkeeping is left out. |
| C89 | `c89_best_partner_partial`: the node joined is one with the largest positive fall of impurity. Negation: `c89_never_joined`, for the same targets there is no such fall, and each node but the root has exactly one parent. |
| C90 | `c90_levels`, for any search and any judge of joins, with no hypotheses but that the run ended. |
| C91 | `Verif.Model.Books`: `Tree.Grow` with its importance and depth arguments, the loop over trees and the columns of the importance file. `c91_same_tree`: the books do not change the tree. `c91_importance_partial`: against `usesOf`, which walks the finished tree with the bag, for one worker, finite values, no near ties, averaged impurities and neither `-vet` nor `-evaloob` (with these the code notes a different number by design). `c91_any_order`: notes of several workers may come in any order. |
| C92 | Negations: `c92_root_not_counted`, `c92_root_overwritten`. `c92_below_root_partial`: right for a feature used at no root. |
| C93 | `Verif.Model.Driver`: the marks and counters of growforest's `main`; regular expressions are tests on names. `c93_candidates_partial`: with unique names the candidates are the allowed features (`Allowed`), and `nFeatures` is their number unless the file lists the target. `c93_splits`: trees grown from these candidates split on allowed features only, for any data, target and options, without further hypotheses (`bestSplitter_keeps`, `grow_names`). Negations: `c93_twin_remains`, `c93_target_listed` with `c93_no_tries`. |
| C94 | `Verif.Model.Report`, with the ballot box's answers as a function. `c94_counts_partial`, `c94_rates_partial`: with no label missing and all predictions among the labels or "NA", counts and the two other rates are right. Negations: `c94_not_precision` (for every label), `c94_unseen_label`, `c94_missing_label`. |
| C95 | `Verif.Model.Stats`, with `math.Sqrt`, `math.Pow` and `beta` abstract. `c95_mean_var`, `c95_welch_partial` (samples of at least two values, not all standard errors zero), `c95_exchange`, `c95_direction`; the continued fraction is exact for two degrees of freedom and small `t` (`c95_two_degrees_partial`), where it ends; how good an approximation 50 rounds are otherwise is C163. |
| C96 | `c96_setup` (contrasts and their marks), `c96_selection` (the decision), and negations through NaN: `c96_one_permutation`, `c96_constant_scores`. The only assumption on `math` is that `Pow(NaN, NaN)` is NaN. |
| C97 | `Verif.Model.Apply` models applyforest from the forest in memory on: the choice of the ballot box, the votes, the predictions and the error; flags and files are left out. Specification `Tree.opinion`, `weightOf`, `numbersOf`. `c97_classes`, `c97_mean_partial` (trees of positive weight), `c97_sum`; negations `c97_expit_skipped`, `c97_name`, `c97_error`, `c97_error_witness`. |
| C98 | `c98_votes`, over the same model. |
| C99 | `Verif.Model.Leafcount`. `c99_pairs`: any permutation of the calls, any order of the map; through C07, the fact that paths determine leaves (`landing_leaf`) and a count of pairs. `c99_symmetric`. That interleaved calls of the locked counter amount to some order is `c27_counter`. |
| C100 | `c100_features`, by an induction over `Recurse` that compares all visits with each case's own way down (`recurse_calls`). |
| C101 | `c101_splits_partial` for one thread; `c101_race` is a schedule of two threads that loses a split. |
| C102 | `c102_unknown`: voting on any tree is voting on the tree in which features that are not in the data are replaced by the first; `c102_witness`; `c102_known_partial` for features in the data. |
| C103 | `Verif.Model.Oob` models the choice of cases for a tree with `-nobag`. Specification `knownOf`. `c103_all` for the default number of samples, `c103_some_partial` for other numbers than that of all cases; negation `c103_tail_lost`. |
| C104 | `oobVotes` in `Verif.Model.Oob` (one worker; with several the ballot boxes are covered by C27). Specification `treesWithout`, with `weightOf` and `numbersOf` of C97. `c104_classes`, `c104_numbers`; negations for gradient boosting `c104_boosted`, `c104_boosted_witness`, `c104_class_boosted`. |
| C105 | `Verif.Model.Toafm` models the tool from the matrix that `LoadAFM` has read on. Specification `keptFeatures`, `kindMarked`, `Feature.SameCases`. `c105_file`, through the round trip of C23, of which all conditions on names are met by the marking; negation, for distinct names, `c105_collision`. |
| C106 | `c106_anonymous` is a statement about two runs: matrices of the same shape (`FeatureMatrix.SameShape`) give the same file. Negation, for the place of the target, `c106_unknown_target`. |
| C107 | `Verif.Model.Choose` models the switch of growforest.go that makes the target, and what happens after a tree. Specification `asked`. `c107_gbt_partial` for all options; negations `c107_adaboost`, `c107_adacost`, `c107_library`. |
| C108 | `c108_used_partial` characterises the combinations of options that are honoured; negation `c108_ignored`. |
| C109 | `Verif.Model.AdaCost`; specification `costlyError`. `c109_step_partial` for positive costs, exact arithmetic and any lawful exponential and logarithm; negations `c109_scale` (ratios) and `c109_unlisted` (positive weights). |
| C110 | `Verif.Model.DEntropy`; specification `costOf`. `c110_share_partial`; negations `c110_zero`, `c110_no_true`, `c110_missing`. |
| C111 | Composition of `Verif.Model.Grow`, `Splitter`, `Sf`, `TreeFile` and `Apply`. Specification `Feature.Tidy`, `Forest.named`, `GrownTree`. `c111_search` and `c111_file` for any search that keeps its contract, by showing that grown trees are writable; `c111_saved` and `c111_growforest` for the search of `BestSplitter`, with nothing assumed of it. Numbers are assumed to be printed faithfully (`NumText.Faithful`). |
| C112 | `Verif.Model.Library`; specification `TreeOf`. `c112_forest_partial` for all random numbers; negation `c112_unknown`: any cases, of known target or not, can be those of the first tree. |
| C113 | `Verif.Model.TreeFile`; specification `NumberedBy`. `c113_progress_partial`; negation `c113_zero`. |
| C114 | `Verif.Model.Setup` (`inferMTry`, `inferLeafSize`, `inferNSamples`). `c114_mTry`, `c114_sizes_partial`; negation `c114_zero`. |
| C115 | `prepare` in `Verif.Model.Setup`. `c115_known_partial` without `-impute`; negation `c115_impute`. |
| C116 | As C115; specification `Rearranged`, `OnlyRearranged`. `c116_only` for all random numbers, `c116_any` for every permutation. |
| C117 | `Verif.Model.Csv` (the reader of encoding/csv as a state machine, quotes included) and `Verif.Model.Matrix`; specifications `Verif.Spec.Csv` (`WritesTable`: each field plain or in quotes) and `Verif.Spec.Table`. `c117_table` by `csvRecords_table`; `c117_crlf`; `c117_lineEnd`: the last line may end or not. |
| C118 | `Verif.Model.Scratch` (searches with the lengths of the scratch slices checked) and `Verif.Model.Run` (a worker's run). `c118_scratch_partial`: bounded and unbounded runs agree, by `growIn_eq` and the bound on sampled cases `drawBag_sound`; negation on a run with `-vet -evaloob`. |
| C119 | `Verif.Model.Run`: sampling, out-of-bag cases, growing over the worker's old tree, `-test`. `c119_run` and `c119_limits` by induction over the trees with `c42_pruned_partial`; `c119_file` by `writeNodes_prune` and `c111_growforest`; negation for the out-of-bag votes. Not modelled: boosting, artificial contrasts; several workers are in C147. |
| C120 | `Verif.Spec.Fair` counts, among all sequences of `k` draws below `n`, `n-1`, …, those giving an outcome. `c120_sample_fair`, `c120_shuffle_fair` and `c120_shuffleCases_fair_partial`: exactly one sequence for each outcome, by showing that the loops read their result off the draws (`sampleLoop_choose`, `shuffleLoop_choose`) and counting. `c120_bag_not_fair` is the negation where a case is listed twice. |
| C121 | `Verif.Spec.Greedy` says of a tree and the cases reaching its root that every node is the best it can be. `c121_greedy_partial` (any size-weighted impurity; `c121_gini_partial`, `c121_sse_partial` are its instances): `search_greedy` and `bestSplit_greedy` for one feature, from C10, C11 and C16; `bestSplitter_greedy` shows that with as many tries as candidates each is evaluated or known constant; `grow_greedy` is by induction on the tree, with C18 for constants found by ancestors. Negations: `c121_last_case`, `c121_missing_apart`. |
| C122 | False of the code: `c122_not_least`. `c122_pairs_partial` proves what is minimised instead, the squared differences between all pairs of cases on one side (`pairSquares_eq`), and bounds how far the squared error is from the least. |
| C123 | `c123_gini_partial`, `c123_sse_partial`: without repeated cases a shuffle rearranges the target's values (`shuffleLoop_rearranged`), so that the impurity of the node stays (`gini_rearranged`, `sse_rearranged`), and what any search reports is then between zero and that impurity (`bestSplit_value`, by the superadditivity of C01 and C02). `c123_kinds`: the measure of the shuffled target for all options. Negations: `c123_costs`, `c123_costs_large`, `c123_repeated`, `c123_density`. |
| C124 | `c124_order`, `c124_monotone`, `c124_converted`; leaves: `c124_class`, `c124_mean`. Two runs in lockstep: the sorted values of both are in the same order and cuts fall at the same places (`numLoop_twin`), so that searches find the same decrease and codes that part the bag alike (`search_twin`, `bestSplit_twin`), candidates are drawn and judged alike (`bestLoop_twin`), and so on down the tree (`grow_twin`). A threshold is the midpoint of two values, so it moves with affine units. Negations: `c124_large_unit`, `c124_vet_order`, `c124_cube`. |
| C125 | Here alone `float64` is not exact: `Model/Rounding.lean` has IEEE double precision rounding (`F64.round`: to nearest, ties to even, overflow; one zero) and the search with rounded comparison and threshold (`bestNumSplitR`); impurities stay exact. `c125_rounds`: the modelled rounding is to the nearest double. `c125_found_partial`: for any rounding to nearest the threshold lies between the two groups that were judged, and parts them unless it falls on the least value on the right; no division that keeps the leaf size is worth more. `c125_exact_partial`, `c125_grid_partial`: for multiples of 2⁻ᵏ (k ≤ 22) below 2⁵²⁻ᵏ the rounded search is the exact one, which justifies the exact model for such data. Negations: `c125_neighbours`, `c125_overflow`, `c125_small_values`. |
| C126 | `Model/RoundedTarget.lean`: the sums, squares, quotients and weighted averages of a numerical target, each rounded as in C125 (no fused multiply-add, which Go leaves out on amd64). `c126_error`: for doubles, a finite impurity is within n·(2⁻⁴⁸·Σv² + 2⁻¹⁰⁷¹) of the squared deviations (forward error analysis of the sum, the sum of squares, the square, quotient and difference). `c126_sign_partial`, `c126_scan_partial`: for multiples of 2⁻ᵏ (k ≤ 400) whose n·Σm² is at most 2⁵³ the impurity has the right sign, is zero only for equal targets, and the search's running sums give what would be computed anew at every cut. Negations: `c126_negative`, `c126_divides_equal`, `c126_seconds`, `c126_drift`. |
| C127 | `c127_error`: the rounded mean of the known cases is within 2⁻⁵¹·Σ\|v\| + 2⁻¹⁰⁷⁵ of the mean. Negation: `c127_outside`. |
| C128 | `Model/NfoldRun.lean`: the whole of nfold from the matrix and the blacklist's first column to the list of files (name and text): blacklist, category limit, imputation, encodings, folds, the three formats. Not modelled: flags and files of the operating system, log output, and sharing of features between the two matrices with `-writeall`. `c128_files_partial`: without imputation, numerical encoding and other formats, the files are, in order, those of `AFM` text that `parseAFM` reads as the test or training cases with the kept features (via C23's round trip), and the test sets are disjoint and balanced (via C40). `c128_arff_partial` says the same of ARFF files (via C59), `c128_names` gives the names of all files under every setting. Negations: `c128_onehot` (for every writable matrix), `c128_libsvm_classes` (every target of three or more classes) with the witness `c128_libsvm_empty`, `c128_target_lost`, `c128_num` (for every matrix: with `-num` the files do not depend on whether stratification was asked for) with the witness `c128_num_classes`. |
| C129 | `c129_train_partial`: the two runs make the same folds, and files of a fold are equal when the matrices agree (labels, missing, known values) on its cases. Negations: `c129_impute`, `c129_libsvm`. |
| C130 | `Spec/Fit.lean`: the cases of a bag that share a leaf, and almost constant features. `c130_fits_partial`: with one candidate number that tells the classes apart, each training case that reaches a leaf gets its class, or that feature is the same for all cases of its leaf but one; leaves of at most 215 cases, so that the least gain of a division exceeds the code's 1e-7. `c130_distinct_partial`: when the feature's values are distinct, the exceptions are leaves of one or two cases. Uses the greedy choice of C121. Negations: `c130_last_case`, `c130_xor`. |
| C131 | `c131_fits_partial`: in each leaf the mean squared deviation of the targets is at most 1e-7, or any chosen candidate number is the same for all cases of the leaf but one. Negations: `c131_last_case`, `c131_small`. |
| C132 | `Model/BoostRun.lean`: the loop of boosting, each tree grown from the residuals the trees before left. `c132_error_partial`: new trees, grown from all cases in any order, learning rate between 0 and 2: each tree lowers the squared error by exactly (2 - lr)/lr times the squared change of the predictions, so never raises it. Missing: bags that are not the whole data and the reused tree object, for which it is false (`c132_bag`, `c132_reused`, both through the written and read file); imperfect arithmetic and text (the numbers in the file are assumed to be read back exactly). |
| C133 | `Model/AdaRun.lean`: trees weighted one after the other. `Spec/AdaRun.lean`: trees whose leaves predict from all cases that reach them, and the number of mistakes. `c133_bound_partial`: for any sequence of such trees, none of them perfect, the weights `α` are not negative and `applyforest -mode` makes at most n / Π cosh α mistakes on the training data, in whatever order Go iterates over votes. Real exponential and logarithm (`realExpLog`). Missing: trees grown from samples, for which it is false (`c133_bag`), and perfect trees (C63). The programs never boost with this target (C107). |
| C134 | `Model/RoundedGini.lean`: every quotient, square, difference, product and sum of the Gini impurity, of the weighted mean of two impurities and of the decrease is rounded as in C125; counts are exact. Because the rounded target still obeys the laws every search theorem asks for (`giniLawsR`: what it computes depends on the counts alone, and on the two groups but not their order), the theorems of C10 and C11 hold of it, and an error analysis ties its values to exact ones. `Target.judged` writes a search with rounded decrease as a search that starts from the impurity −1; `searchR_exact` checks that with exact rounding this is the search of C10–C12. `c134_gini`: within k/2⁵¹ of the exact impurity, not negative, zero only for one class. `c134_num`, `c134_cat`: the division taken is worth at most (k+3)/2⁴⁹ less than any other, and what is reported is within (k+3)/2⁵⁰ of what it is worth; or nothing is worth more than 10⁻⁷ + (k+3)/2⁵⁰. `c134_tie`: of two divisions of equal worth the rounding may take the second. For numbers, `c134_num` speaks of the two groups judged; that the threshold parts them is C125. |
| C135 | No new model: `usesOf` (C91) walks the finished tree with the bag. `c135_account_partial`: the decreases, each times the number of cases at its split, and the impurities of the leaves, once per case, add up to the impurity of the bag times its size; by induction on the tree. `c135_mistakes`: a leaf gets at most size × Gini of its cases wrong (the sum of squares is at most the largest share), so the tree gets at most n·Gini minus the sum of decreases wrong. Missing: the importance file does not weigh decreases (`c135_unweighted`). |
| C136 | `RunningMean.weightedAddR` and `NumBox.voteR` round after every operation of `WeightedAdd` (no fused multiply-add; the compiler fuses on some processors, not on amd64). `c136_mean_partial`: for n ≤ 2⁴⁰ votes of weight one, finite doubles of at most V in size, the tally is within (n + 1)·V/2⁵² of their mean; by induction, each vote adds at most four rounding errors of size n·V/2⁵³. `c136_order`: two orders of the same votes differ by at most twice that. Missing: exact agreement (`c136_agree`) and independence of the order (`c136_schedule`), both false. |
| C137 | `SameClasses`: the same cases share a class, `Moved`: another origin and perhaps the other direction, `Node.blank`: a tree without its predictions (Spec/Labels). `grow_agree`: two targets whose impurities agree on all lists of cases of the bag grow trees that differ in their predictions only; by the simulation of C124, generalised to two targets, and `grow_blank`, which says that predictions never influence the growing. `c137_classes` (Gini), `c137_entropy` (any logarithm): counts of the classes are permuted, and sums over classes do not depend on the order. `c137_numbers`: squared errors do not move. `c137_mean`: the mean does. What does depend on the numbering: the prediction of a leaf with a tie (`c137_tie`) and, in double precision, the last digit of the impurity (`c137_rounded`). |
| C138 | Model/SortCost repeats Model/SortBy with a count: every comparison of values and every exchange goes through an operation that counts one, and `quickSortT` also gives the number of open calls. `c138_steps`: the counting sort makes the same slices as `sortBy`, in at most 32·n·(⌊log₂ n⌋ + 1) steps and with at most ⌊log₂ n⌋ open calls besides the first. One division of n places takes at most 10·n steps: five for each place the scans pass, by induction on the unexamined rest, and the medians; the two parts have together at most n places, also with NaN, where they may overlap; sifting down takes three steps for each doubling of the position. `c138_depth`: the depth limit is that of the comment. |
| C139 | Uses the models of C24, C25 and C43; spec: `Rectangular` (lengths are the number of case labels, features consistent). `c139_afm`, `c139_libsvm`: for any text, well formed or not. `c139_sound`: with distinct names the matrix meets `MatrixOk`, the hypothesis of the theorems about growing. `c139_panics`: the four kinds of text on which `ParseAFM` panics, exactly. `c139_arff_partial`: the columns that the data records reach are full, the others empty. By induction on the records, which have one number of fields because the reader stops at another one. `c139_truncated` records that this stop is silent. |
| C140 | Model `growCommand` and `applyCommand`: the models of C24 (parsing), C93 (choice of features), C114 (inferred sizes), C118, C119 and C147 (the run, with any number of workers), C27 and C111 (the file), C33 (reading), C97 (voting) put together as in the two `main` functions, with `-entropy`, `-l1`, `-vet`, `-evaloob`, `-balance`, `-nobag`, `-force`, `-extra`, `-test`, `-nCores` as options. Spec: `neighbours`, `Plurality`, `votesFor`, `meansFor` count cases and trees and mention neither splits nor ballots. `c140_classes_partial`, `c140_numbers_partial`: composition of c139, c93, c147, c08, c09, c38, c97; what is new is that missing values of the target are stored as zero (so the searches may look at them), that every category of a parsed feature occurs (so balanced sampling finds a case of each), that every leaf a case can reach holds a case of the bag, and that only a missing value keeps a tree from answering. `c140_defaults`: without `-mTry`, `-leafSize` and `-nSamples` the conditions on them hold. `c140_name`, `c140_balance` show the failures; `-vet` with `-evaloob` is `c118_vet_oob`, no workers `c147_none`. |
| C141 | Model `LeafPool`: files not handed out, threads that wait or have calls left, reports received, calls made; a step is a hand-over on the unbuffered channel of files, a call of a counter (a critical section, C27) or a report on the other channel. `leafcountCommand` parses the data, reads the files and runs the pool. `c141_tables` (invariant: made, taken and waiting calls are a permutation of all calls; then C99 and C100 for all trees of all files), `c141_ends_partial` (no deadlock, and every step lowers a measure: exactly calls + 2·files steps), `c141_no_threads`. The splits file is that of C101. |
| C142 | Spec `detLoss`, `detGain`, `detDensity` from the paper, over `cellsOf` (product of the numbers of categories). `det_gain_nonneg` checks the specification. `c142_gain`: the code's gain in those terms, exactly. `c142_equal_density`: where nothing is to be found the code's gain is 2·d·l·r/(n·t) > 0. `c142_halves`: among divisions into equal volumes the code's gain is a constant less 3/2 of the paper's, so the order is reversed. `c142_wrong_division`: the search itself, evaluated. With numerical features the impurity is infinite (C86). |
| C143 | Model `newCosts` (`NewRegretTarget`, `NewDEntropyTarget`, `SetCosts`), `newWeights` (`NewWRFTarget`); specification by class names. `c143_named` (all three get the same numbers by name), `c143_occurs_partial` (a leaf with a class of positive number predicts a class that occurs), `c143_unlisted` (otherwise class 0, or NaN with disutilities, and a NaN impurity), `c143_never_divided` (no comparison in any search can choose a division that isolates such classes). |
| C144 | Same models as C140, another text. Specification `neighboursIn` (cases of the bag in the leaf that the new case reaches by names), `AnswersIn`, `Alike`. `c144_classes_partial`, `c144_numbers_partial`: each tree answers from its neighbours, a case alike to a training case in the allowed features is answered like it, and the written prediction is the vote or the mean. Rests on `recorded_leaves` (a leaf predicts for its cases), `usable_stripCodes` (a tree read from a file works on every parsed table) and `landing_same`. `c144_absent` shows the failure. |
| C145 | `c145_range`, from `c144_numbers_partial`: means of values between two bounds stay between them, twice. |
| C146 | Same models as C119, with `splitCount` and `nodesOf` as specification. `c146_splits` (by induction on grown trees: each split needs `leafSize` more cases; `Grown.counts` relates splits, leaves and nodes, with and without missing branches); `c146_file_partial` counts the lines of the file exactly and bounds them. `c146_more_lines` (a grown tree) and `c146_doubling` (for all n) show what `-splitmissing` does to the file. |
| C147 | `Verif.Model.Cores`: each worker has its own tree object, cases, scratch space and share of the random numbers; the counter of started trees and the list of recorded ones are shared, and an arbitrary `pick` says who records next. `c147_run_partial` by induction over the turns (recorded plus running workers = started trees), `c147_alone` by an induction that keeps track of who recorded what, `c147_one`: with one worker this is the run of C119. `c147_more` and `c147_none` show the failures. The steps inside a turn are those of C30; growing does not touch what is shared. |
| C148 | Model `boostCommand`: parsing, choice of features, sizes (with the default leaf size for boosting), `newGradBoost`, trees grown from residuals in the worker's scratch space and over its old tree object, `GradBoost.round` after each, the file with the mean as intercept; `applyCommand` as in C140. Spec: `boostedSum` (start plus `lr` times the answers), `meanBy`, `neighbours`, `squaredError`. `c148_boosted_partial`: induction over the trees with the residuals as invariant. `boost_ready` and `boost_step` carry over what is known of runs (C118, C119) to the table in which residuals stand for the target; trees avoid the target, so they answer alike on both tables; `round_reused` shows that reducing the residuals cannot fail even for a tree with old nodes below its leaves, `recurse_prune` that walks do not see these; `voter_orthogonal` and `step_error` give the error. `c148_reused`, `c148_missing` show the failures, `c148_mean` what happens without `-sum`. One worker, no `-splitmissing`, no classes. |
| C149 | Model `classBoostCommand`: as `boostCommand` (C148) with `newClassBoost`, `ClassBoost.boost` and `ClassBoost.predicted`, the classes staying in the table; `-balance` is kept. Spec: `newtonStep`, `probabilityOf`, `boostedSum`, `hot`, `hotCount`. `c149_boosted_partial`: induction over the trees with the log odds as invariant (`classState`); `classBoost_step` carries over what is known of runs, `classRound_reused` shows that a round cannot fail even for a tree with old nodes below its leaves. tanh and log are oracles that agree with some `T` between -1 and 1 and some `L` on finite numbers, since numbers must be writable as texts exactly and the reals are not; that `probabilityOf` is the logistic function for the real tanh, and what Newton's step does for the likelihood, is C82 and C83. `c149_panics`, `c149_absent`, `c149_missing`, `c149_reused` show the failures. One worker, no `-splitmissing`. |
| C150 | Model `penaltyR`, `bestSplitR`, `oobStepR`, `vetStepR`, `evalFeatureR`, `bestSplitterR`, `treeGrowerR`: the chain from `BestSplit` to `Tree.Grow` with every operation rounded (`minImp` and numbers of cases exact); `treeGrowerR_exact`: with rounding that changes nothing it is `treeGrower`. Spec: `Feature.Apart` (values and doubles exist, different values are not taken for equal, the rounded threshold is less than the larger value), `NumFeature.Spaced`. `bestNumSplitR_divides` turns the groups that C125 finds into the division by the threshold; `treeGrowerR_searchOk` repeats what is known of the search for the rounded one, for any impurity with `TargetLaws` (exact or rounded), vetted and judged out of bag or not; then C09 and C08 apply (`c150_ends_partial`, `c150_leaves_partial`). `c150_spaced`: numbers of double precision up to 10⁸ that are 10⁻⁶ apart when they differ meet the condition. The negations show by induction on the recursion depth that growing never ends. |
| C151 | Spec `GreedyUpTo ε`: as `Greedy` of C121, with exact impurities, up to `ε`; `Greedy.upTo`: for `ε = 0` it follows from `Greedy`. `TargetLaws.Near`: impurities in double precision within `δ/2` of exact ones, decreases within `δ`; `giniLawsR_near` gives `δ = (k+3)/2⁵⁰` for Gini with `k` classes (from C134). `penaltyR_err`: the six rounded operations that correct for missing values keep the decrease within `3δ`. `searchR_near`, `bestSplitR_near`, `bestSplitterR_near`, `grow_near` follow the proof of C121 with these bounds; the sum is `8δ = (k+3)/2⁴⁷`. Fitting: `gini_offers_cube`, a division of a mixed leaf of `N` cases that gains `1/N³`, which exceeds `1e-7 + ε` for 215 cases and 65536 classes. |
| C152 | Targets are whole multiples of `2^-k`, `k ≤ 400`, at most `A` of them each, and `A` times the number of cases is at most 2²⁵ (`NumFeature.WholeOver`): then all sums of targets and squares are exact in double precision, in any order (C135), and only divisions and the final corrections round. `sseUpToLaws` gives the laws of C150 for a target that agrees with the rounded one on lists up to the size of the bag (`growR_agree`: growing sees no others), `sseUpToLaws_near` the bound `δ = N·A²/2^(2k+48)` of the distance from exact impurities, and `grow_near` of C151 the bound `8δ`. Fitting: `c152_fits_partial` bounds the mean squared deviation in each leaf by `1e-7 + 8δ`; `c152_whole_partial`: for whole numbers with `N·A ≤ 2²⁰` targets in a leaf are equal, since unequal whole numbers deviate by one half at least (`sse_whole`). |
| C153 | `SameQuestions R` (Spec/Questions.lean) says that two trees have the same form and the same split everywhere and predictions that are related by `R`. `grow_same_questions` (from `grow_twin` of C124): trees for targets whose laws agree on lists of cases ask the same questions, for matrices that agree on candidates. `shifted_sseX`, `shifted_agrees`, `shifted_agrees_l1`: sums of squared deviations and absolute errors from the mean do not depend on the origin; `shifted_mean`, `shifted_predicted`: what a leaf predicts does as it should, also with infinite, NaN and missing values. `c153_predictions` reads the predictions as numbers and holds for all cases, also those that were not in training. |
| C154 | `ReadAlike f f' cs`: two targets whose classes read the same for all cases `cs`, none of which is missing; numbers of classes and other classes may differ. A sum over class counters is a sum over cases (`sum_classes`), in which class numbers only occur in comparisons, so Gini impurity (`ReadAlike.gini`, also for no cases) and entropy (`ReadAlike.entropy`, over the reals) are the same. With `grow_same_questions` of C153 the trees ask the same questions, and with C08 and C38 both predict one of the most frequent classes of the training cases in each leaf (`grown_predicts`). |
| C155 | `newGradBoostR`, `GradBoost.roundsR`, `SumBox.voteR` and `applySumR` round every operation with `F64.round`. The product of learning rate and prediction is rounded alike when residuals are updated and when votes are cast, so it cancels (`products`); only additions are left, and `sum_fold_err` bounds their errors by induction, showing along the way that nothing overflows. The prior is the mean up to (n+1)B/2^51 (`prior_err`), and prediction plus residual is the target up to (T+1)(T+3)B/2^51. |
| C156 | A run of boosting (`BoostSetup.run`: residuals, trees grown from them, residuals updated) is compared for a target and the same target with a number added (`NumFeature.shifted`). The residuals are the same (`newGradBoost_shifted`), what follows does not read the intercept (`update_mean`, `boost_mean`, `round_mean`, `trees_mean`), and the intercept is added to the sum of votes at the end (`applySum_shifted`). All impurities, options and trees that are reused are covered, and runs that panic panic for both. |
| C157 | A run of boosting of two classes with new trees (`BoostSetup.classRun`: `newClassBoost`, `grow` from the residuals, `partition`, `ClassBoost.boost`) is made twice, with each class as the positive one. Impurity and score of the residuals do not see the sign (`negated_sseX`, `negated_fScore`), so the searches decide alike (`grow_same_questions_next`, which also returns that the random numbers and candidates left over are the same); what leaves predict changes its sign (`classFind_neg`), and so do the log odds after each round (`classTrees_opposite`). `tanh` is any odd function with values between -1 and 1 and `log` any function with `L (1/x) = - L x`. Without `-vet`, `-evaloob` and `-splitmissing`; bags are arbitrary nonempty lists of cases. |
| C158 | `gradboostclasstarget.go` again with every operation rounded to double precision (`Model/RoundedClassBoost.lean`; `math.Tanh` is any function with values in [-1, 1] that does not decrease, `math.Log` any function). Rounding is monotone on all values (`rounded_mono`), so probabilities are (`c158_probability`, `c158_monotone`). That a residual is the class less the probability is kept by every update (`kept_update`, `kept_rounds`), which gives `c158_residuals` for any trees at all. In a leaf with probabilities at least 2^-k away from 0 and 1 every term of the denominator is at least 2^-k times the residual; since powers of two pass through rounding (`nearest_scale`, `nearest_multiple`) the rounded sums keep that relation (`leaf_sums`), so the quotient is at most 2^k (`c158_leaf_partial`). |
| C159 | The worker loop of growforest with `-gbt` and `-nCores` (`Model/BoostCores.lean`): a pool of workers shares the residuals; a step is that one worker grows a tree from the residuals of the moment, outside the mutex, or takes the mutex and boosts with the tree it has. `c159_account` holds for every order of steps (`Possible`), by an invariant on the pool (`PoolAt`). With workers in step every tree is a projection of the same residuals (`grow_boost`), so that a round changes the error by at most -lr(2 - lr W) times the squared norms of the projections (`project_many`), which gives `c159_error_partial`. |
| C160 | The two commands of C148 on two different texts. `boosted_file` says of the file that it holds the trees of the boosting run with splits by name (`written_forest`), `BoostedTree` now also says what each leaf predicts and which features are split on, and `usable_stripCodes`, `landing_same` of C144 carry this over to the other table (`AnsweringTree.answersIn`, `AnsweringTree.alike`). |
| C161 | From C160. What is left of the training target grows by at most a factor 1 + lr with each tree, and every answer is a mean of what was left (`answers_bounded`). With all cases for each tree, the squared error does not grow (C148), and the square of a mean over distinct cases is at most the sum of squares (`meanBy_sq`). That the range of the target, which bounds a forest without boosting (C145), does not bound a boosted one is `c161_beyond`. |
| C162 | The two commands of C149 on two different texts. As C160, with `class_boosted_file` for `boosted_file`; `AnsweringTree.answersIn`, `summed_other` and `summed_alike` are shared by both. |
| C163 | The specification is the integral of the density (`studentTail`, `Verif.Spec.Student`); the model is that of C95 over the reals, with `math.Sqrt`, `math.Pow` and `beta` the real root, power and quotient of gamma functions. `Lemmas/Gauss`: hypergeometric series and their contiguous relation, which makes the continued fraction of stats.go:78-86 exact with the quotient of two series for its tail. `Lemmas/BetaFraction`: each of the 50 rounds for x ≤ 9/10, b = 1/2 shrinks the error to three fifths or less (`fraction_fifty`). `Lemmas/BetaNear`: for the other side, x ≤ 1/10, a = 1/2, b ≤ 100, a bound of the error is carried through the rounds and evaluated (`fraction_near`). `Lemmas/Student`, `Lemmas/StudentNear`: the tail and the middle of the distribution as these series, by substitution and integration term by term. In double precision (`Verif.Model.RoundedStats`) the fraction is evaluated for one pair of samples (`fraction_lost`). |
| C164 | `aceCommand` (`Verif.Model.Ace`) follows growforest.go:529-556, 577-830 and 871-877 from the text of the data to the text of the forest and the lines of the importance file, with one worker: contrasts are added, forests grown with importances noted, contrasts shuffled again, columns tested, features dropped, and the last forest grown. Selection (`c164_significant`): every splitter names a candidate (`bestSplitterIn_keeps`, `run_names`), and candidates of the last run are those that `aceFilter` has kept (C96). Importances (`c164_classes_partial`, `c164_numbers_partial`): the matrix stays the table with a shuffled copy of each feature (`Contrasted`, kept by `reshuffle`), which is sound again (`contrasted_ok`), so that each noted mean is the account of C91 for all trees of the forest (`scoredTrees_ok`, `aceForest_ok`). What `p` means is C163. |
| C165 | `growMissingCommand` (`Verif.Model.Missing`) is `growCommand` with `splitmissing`. Trees grown so have a third branch at every split (`Grown.branch_not_nil`); they can be written, and what is read votes as the tree with the right branch in place of the third (`recorded_righted`, from `back_same` of C54). A case reaches in that tree the leaf that it reaches in the grown one going right where its value is missing (`Grown.landing_righted`), and this leaf holds cases of the bag, since right branches are never empty (C09). What is predicted follows with C97. For cases with all values the leaf is that of the grown tree (`c165_known`). The negation is by evaluation. |
| C166 | `growWeighedCommand` (`Verif.Model.CostCommand`) is `growCommand` with the target made for `-cost`, `-rfweights` or `-NP`, on the models of C38, C72 and C143. The specification weighs by the names of classes: `CatFeature.Cheapest`, for the costs that the option asks for (`Weighing.Asks`). Proof: the command is ready to run for any impurity from counts (`weighed_ready`, as C140), and what the targets predict is cheapest (`weighed_predicts`): numbers of classes are their places in the file, so costs by number are costs by name (`costByName_eq`), and the weights of `-NP` are the inverse of the constraint for its class and 1 otherwise (`npWeighted_names`). Missing: names of classes beginning with N (C140), a constrained class that is not in the data. |
| C167 | `applyWhole` (`Verif.Model.ApplyWhole`) goes on from `applyCommand` to the end of applyforest: the error printed and the lines of predictions. What `Tally` returns when the error is counted and when lines are written are two functions, each allowed by the model of iteration over maps. Proof: voting is C140; the box that is chosen has the kind of the target (`apply_cat`, `apply_numbers`); the errors are C28 and C29, put into names of classes by `balancedError_eq`; every class of a parsed target occurs (`parsed_occurs`), so nothing is divided by zero. If one class is ahead for each case, both functions agree. The negations are by evaluation, `c167_tie` with a check over permutations (`tallyCheck`). |
| C168 | `growOrdinalCommand` (`Verif.Model.OrdinalCommand`): as `growCommand`, with the ordinal target; applyforest is `applyCommand` and `applyWhole`. Proof: the impurity of an ordinal target is total on whole numbers and does not depend on the order of cases (`ordinal_laws`, from the lemmas of C79), so the general theorem on runs applies (`ordinal_ready`); answers of leaves are modes (`modeOf_commonest`), carried through file and ballot box as in C140. Left out: `-l1` together with `-ordinal`. The negations are by evaluation. |
| C169 | `growImputedCommand` (`Verif.Model.ImputeCommand`): as `growCommand`, with `ImputeMissing` after the choice of features. What the filled in table must be is said in `FeatureMatrix.Filled`, without the code. Proof: by C32 filling in succeeds for each feature, and the table that results is rectangular, indexed, clean and lacks nothing (`filled_table`); names and order stay, so the choice of features does (`SameNames.choose`); then as for C144, with the filled in table as the one grown from and any text as the one applied to. `c169_complete` says which cases of the original text are answered alike. The negations are by evaluation. |
| C170 | `growShuffledCommand` (`Verif.Model.ShuffleCommand`): as `growCommand`, with `prepare` of C116 after the choice of features. What the table must be is said in `FeatureMatrix.Moved` with `ToMove`, without the code. Proof: by C116 the values are only rearranged; a rearranged feature is consistent, has the names and classes of before, all of which occur, and zeroes where values are missing (`moved_table`), which is what growing needs (`class_ready_zero`, `num_ready_zero`); names stay, so the choice of features does; then as for C144 with the moved table as the one grown from. `c170_same`: cases of the original text are answered alike if no feature that may be split on was moved; `c170_unlike` shows that this is needed. Random numbers of the shuffle are a stream of their own. |
| C171 | `growOobCommand`, `oobReport` (`Verif.Model.OobCommand`): as `growCommand`, each recorded tree voting on the cases outside its bag before it is written, in any order of the trees; then the printed error and the lines. The trees are those that the worker holds, with what older trees left below their leaves (`-test` unused): `Node.heard` says without the code of voting which answers come through. Proof: the walk of `VoteCases` sees a tree whose nodes are marked by whether they look like leaves (`markNode`, `voteCases_heard`), so that the theorem on votes for usable trees (C06) applies; totals of a case are then numbers of trees (`heard_weight`, `heard_numbers`), box and error as in C25, C26, C28, C29, C167. With no more trees than workers each tree object is new and all answers are heard (`runCores_new`). Simplified: a tree votes on all of its cases before another does. |
| C172 | `growTestCommand`, `testBox`, `printedTestError` (`Verif.Model.TestCommand`): as `growCommand` with `-test`, then the votes of the kept trees on the training data, or, without codes of splits, on those of the test file. What growforest keeps are pointers to tree objects: `treeObjects` names the object of each recorded tree, for any number of workers and any schedule, and `keptTrees` gives what the objects hold in the end. The property is an equation: with no more trees than workers `growTestCommand` is `growCommand` followed by `applyCommand`, panics included, from reading the file again (C111, C140, C144) and new tree objects (`runCores_new`); the errors agree by `test_error`. `c172_lost` for more trees than workers, by induction over the turns (`objects_twice`): exactly one object is used twice, so the box is that of the trees of the file with one replaced by a later one. Left out: the reports by class printed after the error (growforest.go:929-960), of which `testReport` is a model of its own. |
| C173 | `importanceCommand`, `importanceFile`, `RunSetup.notedRun` (`Verif.Model.ImpCommand`): as `growCommand` for one worker, with `growNoting` of C91 for each tree, the depths of each tree counted into the means, and the lines of the file with names. The property (`Verif.Spec.ImpCommand`) is about the trees written with their bags: `ImportanceOf` computes each column from the splits on the feature (`splitsOn`). Equality of the forest with that of `growCommand` is one of partial functions, so panics are included (`notedRun_forget`, from `growNoting_total` and `growNoting_forget`). The columns are by induction over the trees (`notedTrees_ok`), also for trees grown over old ones, with missing values. `c173_text` reads the text of the file (`importanceText`) back into its lines, with numbers as text abstract (`NumText`). Left out: several workers (for the importances see `c91_any_order`), `-vet` and `-evaloob`. |
| C174 | `NumFeature.ModeMayBe`, `numCounts`, `pickMost` (`Verif.Model.NumMode`): the map from values to counts is a list of entries (`countKey`; keys are compared with Go's `==`, so NaN is never found again), and the loop over it meets any permutation of the entries. The property (`Verif.Spec.NumMode`) counts in the list of known values. The map has each value once, with its count (`counted`, by induction from the end of the list); the loop returns a largest entry (`pickMost_from`). |
| C175 | `loadAFM`, `DiskFile` (`Verif.Model.Load`): a file is its text and, if it is an archive, the list of the files in it; unpacking itself and the file system are not modelled. The readers are those of C23, C24 and C59, whose theorems give what is loaded for files that the writers wrote (`c175_afm`, `c175_arff`, `c175_libsvm`). A panic, nil without an error and nil with an error are kept apart. |

## Trusted base

The Lean 4 kernel; the axioms `propext`, `Classical.choice`, `Quot.sound` (no
others); the correspondence between the definitions under `Verif/Model` and the
cited Go lines, which is by reading; the modelling choices above.

<!-- axioms begin -->
### Axioms of each theorem

As printed by `#print axioms` (generated from the build; 572 theorems of `MANIFEST.json`, all in namespace `CloudForest`).

* **`Classical.choice`, `Quot.sound`, `propext`** (522): `c01_splitter_split`, `c01_coded_split`, `c01_blocks`, `c02_coded_eq_decoded`, `c02_stripCodes`, `c03_names_only`, `c04_bijection`, `c04_stable`, `c05_sortBy`, `c06_one_vote_per_case`, `c06_order_irrelevant`, `c06_independent`, `c07_partition`, `c07_votes`, `c07_disjoint`, `c08_leaf_predictions`, `c08_grow`, `c09_grow`, `c09_terminates`, `c09_limits`, `c10_num_search`, `c10_near_ties_differ`, `c100_features`, `c101_splits_partial`, `c102_unknown`, `c102_witness`, `c103_all`, `c103_some_partial`, `c104_classes`, `c104_numbers`, `c104_boosted`, `c104_boosted_witness`, `c104_class_boosted`, `c105_file`, `c105_collision`, `c106_anonymous`, `c106_unknown_target`, `c109_step_partial`, `c109_scale`, `c109_unlisted`, `c11_exhaustive`, `c110_share_partial`, `c110_zero`, `c110_no_true`, `c110_missing`, `c111_search`, `c111_saved`, `c111_file`, `c111_growforest`, `c112_forest_partial`, `c112_unknown`, `c113_progress_partial`, `c113_zero`, `c114_mTry`, `c115_known_partial`, `c115_impute`, `c116_only`, `c116_any`, `c117_table`, `c117_crlf`, `c117_lineEnd`, `c118_scratch_partial`, `c118_vet_oob`, `c119_run`, `c119_limits`, `c119_file`, `c119_oob_votes_lost`, `c12_iterative`, `c12_big_same`, `c120_sample_fair`, `c120_shuffle_fair`, `c120_shuffleCases_fair_partial`, `c121_greedy_partial`, `c121_gini_partial`, `c121_sse_partial`, `c121_last_case`, `c121_missing_apart`, `c122_pairs_partial`, `c122_not_least`, `c123_gini_partial`, `c123_sse_partial`, `c123_costs`, `c123_costs_large`, `c123_repeated`, `c124_order`, `c124_monotone`, `c124_converted`, `c124_class`, `c124_large_unit`, `c124_vet_order`, `c124_cube`, `c125_rounds`, `c125_found_partial`, `c125_exact_partial`, `c125_grid_partial`, `c125_neighbours`, `c125_overflow`, `c125_small_values`, `c126_error`, `c126_sign_partial`, `c126_scan_partial`, `c126_negative`, `c126_divides_equal`, `c126_seconds`, `c126_drift`, `c127_error`, `c127_outside`, `c128_files_partial`, `c128_arff_partial`, `c128_names`, `c128_onehot`, `c128_libsvm_empty`, `c128_libsvm_classes`, `c128_target_lost`, `c128_num`, `c128_num_classes`, `c129_train_partial`, `c129_impute`, `c129_libsvm`, `c13_counts`, `c13_gini`, `c130_fits_partial`, `c130_distinct_partial`, `c130_last_case`, `c130_xor`, `c131_fits_partial`, `c131_last_case`, `c131_small`, `c132_error_partial`, `c132_bag`, `c132_reused`, `c133_bound_partial`, `c133_bag`, `c134_gini`, `c134_num`, `c134_cat`, `c134_tie`, `c135_account_partial`, `c135_mistakes`, `c135_unweighted`, `c136_mean_partial`, `c136_order`, `c136_agree`, `c136_schedule`, `c137_classes`, `c137_entropy`, `c137_numbers`, `c137_mean`, `c137_tie`, `c137_rounded`, `SortBy.c138_steps`, `SortBy.c138_depth`, `c139_afm`, `c139_sound`, `c139_panics`, `c139_libsvm`, `c139_arff_partial`, `c139_arff_short`, `c139_truncated`, `c14_gini`, `c14_invariant`, `c14_split`, `c140_classes_partial`, `c140_numbers_partial`, `c140_defaults`, `c140_name`, `c140_balance`, `c141_tables`, `c141_ends_partial`, `c141_no_threads`, `c142_gain`, `c142_equal_density`, `c142_halves`, `c142_wrong_division`, `c143_named`, `c143_occurs_partial`, `c143_unlisted`, `c143_never_divided`, `c144_classes_partial`, `c144_numbers_partial`, `c144_absent`, `c145_range`, `c146_splits`, `c146_file_partial`, `c146_more_lines`, `c146_doubling`, `c147_run_partial`, `c147_alone`, `c147_one`, `c147_more`, `c147_none`, `c148_boosted_partial`, `c148_reused`, `c148_missing`, `c148_mean`, `c149_boosted_partial`, `c149_panics`, `c149_absent`, `c149_missing`, `c149_reused`, `c15_sse_partial`, `c15_split_partial`, `c15_missing_counted`, `c150_ends_partial`, `c150_leaves_partial`, `c150_spaced`, `c150_double_partial`, `c150_neighbours_never_end`, `c150_neighbours_exact`, `c150_overflow_never_ends`, `c151_greedy_partial`, `c151_fits_partial`, `c151_last_case`, `c152_greedy_partial`, `c152_fits_partial`, `c152_whole_partial`, `c152_last_case`, `c152_divides_equal`, `c153_origin_partial`, `c153_origin_l1_partial`, `c153_predictions`, `c153_unit`, `c153_rounding`, `c154_numbers_partial`, `c154_entropy_partial`, `c154_tie`, `c155_telescope_partial`, `c155_exact`, `c156_origin_partial`, `c156_unit`, `c156_rounding`, `c157_positive_partial`, `c157_missing`, `c158_probability`, `c158_monotone`, `c158_residuals`, `c158_leaf_partial`, `c158_settled`, `c158_diverges`, `c159_account`, `c159_error_partial`, `c159_diverges`, `c16_three_way`, `c160_other_partial`, `c160_absent`, `c161_bounded_partial`, `c161_beyond`, `c162_other_partial`, `c162_absent`, `c163_student_partial`, `c163_large_partial`, `c163_double`, `c164_significant`, `c164_classes_partial`, `c164_numbers_partial`, `c164_contrasts_written`, `c165_classes_partial`, `c165_numbers_partial`, `c165_other_side`, `c166_classes_partial`, `c167_classes_partial`, `c167_numbers_partial`, `c167_tie`, `c167_name`, `c167_mode`, `c168_ordinal_partial`, `c168_between`, `c168_mode`, `c168_negative`, `c169_classes_partial`, `c169_numbers_partial`, `c169_refused`, `c169_target`, `c169_never`, `c17_best_splitter`, `c170_classes`, `c170_numbers`, `c170_exchanged`, `c170_unlike`, `c171_classes_partial`, `c171_numbers_partial`, `c171_lost`, `c171_inside`, `c172_classes_partial`, `c172_numbers_partial`, `c172_lost`, `c172_error`, `c173_classes_partial`, `c173_numbers_partial`, `c173_text`, `c173_root`, `c174_mode_partial`, `c174_one`, `c174_filter`, `c174_nan`, `c174_tie`, `c175_zip_partial`, `c175_error`, `c175_afm`, `c175_arff`, `c175_libsvm`, `c175_packed`, `c175_empty`, `c18_constant_stays`, `c19_sampleFirstN`, `c19_any_sample`, `c20_with_replacement`, `c20_balanced`, `c20_oob`, `c21_tree`, `c21_votes`, `c21_votes_grown`, `c22_forest_partial`, `c22_votes`, `c22_concat`, `c22_target_lost`, `c23_roundtrip_partial`, `c23_no_cases`, `c23_short_name`, `c23_first_label`, `c23_quotes`, `c24_parse`, `c24_roundtrip_partial`, `c24_numerical_target`, `c24_missing_target`, `c24_negative_index`, `c24_bad_index`, `c25_tally`, `c25_order`, `c26_mean`, `c27_linearisable`, `c27_num`, `c27_num_mean`, `c27_sum`, `c27_counter`, `c27_cat_race`, `c27_cat_partial`, `c28_error`, `c28_range`, `c29_squared_error`, `c29_error`, `c29_scores`, `c30_count`, `c30_duplicate`, `c30_kept_partial`, `c31_shuffleCases_cat`, `c31_shuffleCases_num`, `c31_shuffle_cat`, `c31_shuffle_num`, `c31_contrast_cat`, `c31_contrast_num`, `c31_contrastAll`, `c31_addContrasts`, `c32_cat`, `c32_num`, `c32_all_missing`, `c33_num_partial`, `c33_cat_partial`, `c33_cat_shared`, `c34_invariant`, `c34_cat_strings_partial`, `c34_putStr_token`, `c34_num_strings`, `c35_matrix_partial`, `c35_collision`, `c36_telescope`, `c37_step`, `c37_rounds`, `realExpLog_lawful`, `c38_cat`, `c38_num`, `c38_wrf`, `c38_regret_partial`, `c38_regret_missing`, `c38_ada_plain_mode`, `c39_flat_partial`, `c39_binary_only`, `c39_category_lost`, `c39_missing_lost`, `c40_unstratified`, `c40_stratified`, `c40_train`, `c40_complement_partial`, `c40_leftover`, `c40_unclassed`, `c41_entropy`, `c41_incremental`, `c42_regrown_loses_votes`, `c42_pruned_partial`, `c43_parse`, `c43_strip_target`, `c43_sequence_partial`, `c43_misplaced`, `c44_octal`, `c44_fraction`, `c45_empty_missing_vote`, `c45_known_cases_partial`, `c46_gini_uninformative_partial`, `c46_sse_uninformative`, `c47_infinite_threshold`, `c47_grow_diverges`, `c47_finite_partial`, `c48_random_constant`, `c48_exhaustive_partial`, `c49_mTry_panics`, `c49_few_tries_partial`, `c50_secondary_partial`, `c51_zero_weight_nan`, `c51_later_zeros_partial`, `c52_unvoted_counted`, `c52_squared_error_partial`, `c53_partial`, `c54_missing_lost`, `c54_missing_partial`, `c55_error_swallowed`, `c55_error_partial`, `c56_nan_known`, `c56_missing_partial`, `c57_values_partial`, `c59_roundtrip_partial`, `c59_percent`, `c60_lines_partial`, `c60_last_line`, `c61_imputed`, `c61_unchanged_partial`, `c62_prior`, `c62_known_partial`, `c63_perfect_tree`, `c64_plain`, `c64_oob_gini`, `c64_vet`, `c64_one_sided`, `c64_parent_impurity`, `c65_constant_iff`, `c66_information_gain`, `c67_counts_partial`, `c67_ada_partial`, `c67_hdist_partial`, `c67_dentropy`, `c68_regret_partial`, `c68_split`, `c68_half`, `c69_score`, `c69_search`, `c70_score_partial`, `c70_one_class`, `c70_not_hellinger`, `c70_predict`, `c71_wrf_partial`, `c71_increase`, `c72_np`, `c73_trans_partial`, `c73_positive_beta`, `c74_hdist`, `c74_grad_partial`, `c74_grad_lost`, `c75_ada_partial`, `c75_ada_increase`, `c76_values_partial`, `c76_shared_marks`, `c77_impurity_partial`, `c77_not_least`, `c78_l1_partial`, `c78_l1_missing_partial`, `c78_l1_increase`, `c78_ordinal_increase`, `c79_ordinal`, `c80_step_partial`, `c80_rounds_partial`, `c80_perfect`, `c81_rounds`, `c82_start`, `c82_newton`, `c82_one_class`, `c83_leaf_partial`, `c83_less_likely`, `c84_known_partial`, `c84_counted_negative`, `c85_cat_partial`, `c85_num_zero`, `c86_categorical_partial`, `c86_numeric`, `c87_density_partial`, `c87_numeric_ignored`, `c87_combined_partial`, `c88_jungle_partial`, `c88_joined_leaf`, `gini_neverWorse`, `sse_neverWorse`, `entropy_neverWorse`, `c89_never_joined`, `c90_levels`, `c91_same_tree`, `c91_importance_partial`, `c91_any_order`, `c92_below_root_partial`, `c92_root_not_counted`, `c92_root_overwritten`, `c93_candidates_partial`, `c93_splits`, `c93_no_tries`, `c94_counts_partial`, `c94_rates_partial`, `c94_not_precision`, `c94_missing_label`, `c95_mean_var`, `c95_welch_partial`, `c95_exchange`, `c95_direction`, `c95_two_degrees_partial`, `c96_setup`, `c96_one_permutation`, `c96_constant_scores`, `c97_classes`, `c97_mean_partial`, `c97_sum`, `c97_name`, `c97_error`, `c97_error_witness`, `c98_votes`, `c99_pairs`, `c99_symmetric`.
* **`Quot.sound`, `propext`** (42): `c02_decode_name`, `c03_unlisted_goes_right`, `c05_short_vals_panics`, `c06_weight`, `c101_race`, `c102_known_partial`, `c103_tail_lost`, `c107_adacost`, `c114_sizes_partial`, `c114_zero`, `c120_bag_not_fair`, `c124_mean`, `c13_sse`, `c165_known`, `c169_complete`, `c170_same`, `c20_bagging`, `c26_order`, `c26_sum`, `c33_num_flag`, `c35_indicators`, `c35_code`, `c43_contrasts`, `c43_contrastAll`, `c43_strip`, `c44_integer_partial`, `c44_range`, `c44_error`, `c53_hangs`, `c57_numbers`, `c58_dropped`, `c58_indicators_partial`, `c62_marks_cleared`, `c67_grad_partial`, `c84_marks_cleared`, `c87_supervised_partial`, `c89_best_partner_partial`, `c93_twin_remains`, `c93_target_listed`, `c94_unseen_label`, `c96_selection`, `c97_expit_skipped`.
* **`propext`** (8): `c107_gbt_partial`, `c107_adaboost`, `c107_library`, `c108_used_partial`, `c108_ignored`, `c123_kinds`, `c123_density`, `c50_empty_combination_panics`.
<!-- axioms end -->

<!-- code begin -->
### Modelled code, by file

A function counts as modelled if definitions in `Verif/Model` cite at least 60% of its lines (the rest are opening of files, flags, messages and the like), in part if they cite fewer. Line numbers are in the comments of the definitions.

| file | modelled | in part | not modelled |
|---|---|---|---|
| NPtarget.go | all 6 functions | – | – |
| adaboosttarget.go | all 6 functions | – | – |
| adacosttarget.go | all 7 functions | – | – |
| applyforest/applyforest.go | all 1 functions | – | – |
| arff.go | all 2 functions | – | – |
| catballotbox.go | all 5 functions | – | – |
| catmap.go | all 3 functions | – | – |
| densecatfeature.go | 40 functions | – | DenseCatFeature.FilterMissing |
| densenumfeature.go | 34 functions | – | DenseNumFeature.ShuffledCopy, DenseNumFeature.CopyInTo |
| densitytarget.go | 2 functions | – | DensityTarget.GetName, DensityTarget.SplitImpurity, DensityTarget.UpdateSImpFromAllocs, DensityTarget.NCats |
| dentropytarget.go | 6 functions | – | NewDEntropyTarget |
| entropytarget.go | 4 functions | – | NewEntropyTarget |
| featurematrix.go | all 12 functions | – | – |
| forestreader.go | 3 functions | – | NewForestReader |
| forestwriter.go | 7 functions | – | NewForestWriter |
| forrest.go | all 1 functions | – | – |
| gradboostclasstarget.go | all 8 functions | – | – |
| gradboosttarget.go | 8 functions | – | GradBoostTarget.Intercept |
| growforest/growforest.go | all 1 functions | – | – |
| hdistancetarget.go | 5 functions | – | NewHDistanceTarget |
| l1target.go | all 4 functions | – | – |
| leafcount/leafcount.go | all 1 functions | – | – |
| libsvm.go | all 3 functions | – | – |
| node.go | all 3 functions | – | – |
| numadaboostingtarget.go | all 5 functions | – | – |
| numballotbox.go | all 7 functions | – | – |
| ordinaltarget.go | all 7 functions | – | – |
| regrettarget.go | all 7 functions | – | – |
| sampeling.go | all 6 functions | – | – |
| sklearn_tree.go | all 2 functions | – | – |
| sortablefeature.go | 1 functions | – | SortableFeature.Sort, SortableFeature.Len, SortableFeature.Less, SortableFeature.Swap |
| sortby/sortby.go | 8 functions | – | swapRange, min |
| splitallocations.go | all 1 functions | – | – |
| splitter.go | all 1 functions | – | – |
| stats/stats.go | all 7 functions | – | – |
| sumballotbox.go | all 6 functions | – | – |
| transduction.go | all 6 functions | – | – |
| tree.go | all 9 functions | – | – |
| utils.go | all 8 functions | – | – |
| utils/nfold/main.go | 1 functions | – | openfiles |
| utils/toafm/main.go | all 1 functions | – | – |
| wrftarget.go | all 6 functions | – | – |
<!-- code end -->

## Not modelled

* Floating-point rounding and overflow, except in C125–C127, C134 and C136, where
  thresholds of numerical splits, numerical and Gini impurity, means and averages of votes are computed in IEEE double
  precision. Signed zero. Everywhere else numbers are exact, and a theorem says
  nothing about rounding.
* Integer overflow, memory exhaustion, limits of the operating system.
* The Go memory model beyond interleaving of the marked atomic steps.
* The quality of `math/rand`: an arbitrary stream of numbers takes its place.
* Command-line flag parsing, opening of files, profiling, progress output and the
  text of messages. `log.Fatal` and `panic` are both `none`.
* Library code: `encoding/csv` is modelled as far as C23, C59 and C117 go, `sort`,
  `strings`, `strconv`, `bufio`, `sync` and `math/big` by what their documentation
  promises.
* Functions in the last column of the table above.

## Disagreements between code and property

* **C42** `c42_regrown_loses_votes`: `Tree.Grow` reuses old children (tree.go:155) and does not
  clear them when a node becomes a leaf; `VoteCases` recognises leaves by nil children, so a
  re-grown tree can lose votes. growforest re-grows tree objects when boosting or testing.
* **C45** `c45_empty_missing_vote`: with `splitmissing` a node at which no in-bag case is missing
  gets an empty `Missing` node that is never grown (tree.go:159, node.go:81); a case missing there
  votes `""`.
* **C15** `c15_missing_counted`: the numerical target's sums read `NumData` of every case without
  asking whether it is missing (densenumfeature.go:470-478), so missing target values act as zeros.
* **C46** `c46_sse_uninformative`: a numerical parent's impurity is the *sum* of squared errors
  (densenumfeature.go:481-495) while the split impurity is the size-weighted *mean* of the sides'
  sums (394-431), so an uninformative split is credited with about half the parent's impurity.
* **C10** holds only without near ties: `c10_near_ties_differ` shows a reported decrease of 1/2 for
  a threshold that achieves 1/6, because gaps up to `constant_cutoff` are skipped but the threshold
  is the midpoint of the last and the next evaluated value (densenumfeature.go:326, 358-360).
* **C47** `c47_infinite_threshold`: the midpoint of a finite and an infinite value is infinite; all
  cases go left although a decrease is reported.
  `c47_grow_diverges`: on the values 0, +Inf, +Inf `Tree.Grow` without a depth limit never returns.
* **C48** `c48_random_constant`: `constant` stays true if none of the randomly drawn divisions is
  admissible (densecatfeature.go:651-745); the feature is then skipped in the whole subtree.
* **C49** `c49_mTry_panics`: with mTry larger than the number of candidates `BestSplitter` indexes
  past the candidates (featurematrix.go:183-190) once all of them have been tried.
* **C50** `c50_empty_combination_panics`: `SecondaryBalancedSampler.Sample` draws from a combination
  of classes without cases, and `rand.Intn(0)` panics (sampeling.go).
* **C51** `c51_zero_weight_nan`: `RunningMean.WeightedAdd` divides by the new total weight
  (utils.go:33-48); a first vote of weight zero makes the mean NaN for ever.
* **C52** `c52_unvoted_counted`: a case without votes has `TallyNum` 0, not NaN, so
  `TallySquaredError` counts it as predicted 0 (numballotbox.go:65-74).
* **C28** with a class without cases the error is NaN (0/0, catballotbox.go:111).
* **C27** `c27_cat_race`: `CatBallotBox.Vote` calls `CatToNum`, which may enter a new category into
  the shared map, before it locks the box (catballotbox.go); two goroutines can give two categories
  one number.
* **C30** `c30_duplicate`: a worker takes a new tree object while `treesStarted < nTrees-1`
  (growforest.go:716) but grows another tree while `treesStarted < nTrees` (726). With `-test` and
  more trees than cores the last tree grown overwrites one that was kept, and is kept twice.
* **C53** `c53_hangs`: on an infinite boosting weight a worker leaves its loop without
  `waitGroup.Done` (growforest.go:685-689), so `waitGroup.Wait` never returns; a second worker that
  does so closes `treechan` again, which panics.
* **C54** `c54_missing_lost`: `WriteNodeAndChildren` writes `n.Right` under the path of `n.Missing`
  (forestwriter.go:70-72), so a missing branch is read back as a copy of the right branch; if there is
  no right branch the writer panics.
* **C22** `c22_target_lost`: `WriteForest` writes a forest header only if the intercept is not zero
  (forestwriter.go:27-29); otherwise `ReadForest` takes the target of the first tree, which
  `GrowRandomForest` leaves empty.
* **C55** `c55_error_swallowed`: after an error of `ReadTree` other than the end of the file
  `ReadForest` returns the error of an earlier `Peek`, which is nil; a last line without line end is
  dropped (forestreader.go:42-68, 85-88). A blank line panics (`clauses[-1]`, forestreader.go:175).
* **C34** `c34_putStr_token`: `DenseCatFeature.PutStr` marks the case missing on a missing-value token but
  does not return (densecatfeature.go:146-150); it goes on to store the token as a category and to clear
  the mark.
* **C56** `c56_nan_known`: `nan` is a missing value in categorical columns (densecatfeature.go:88), while
  `DenseNumFeature.Append` takes what `ParseFloat` accepts (densenumfeature.go:23), so that a numerical
  column with `nan` has a known value, a mean and imputed values that are not numbers.
* **C23** `c23_no_cases`, `c23_short_name`, `c23_first_label`: `ParseAFM` looks at the first case label to
  decide whether features are in rows or columns (featurematrix.go:360), so a matrix written without cases
  cannot be read, and one whose first case is called like a feature is read transposed; names of one byte,
  such as `ParseLibSVM` gives, panic (featurematrix.go:449).
* **C35**, **C43** `c35_collision`, `c43_misplaced`: `EncodeToNum` and `OneHot` number columns by
  `len(out.Map)` (featurematrix.go:64-103), which falls behind as soon as a name repeats; `AddContrasts` makes
  repeated names.
* **C57** `c57_numbers`: `StripStrings` writes `Map[v] = i` with the index of the feature instead of the
  category (featurematrix.go:54).
* **C58** `c58_dropped`: `OneHot` returns nothing for at most two categories (densecatfeature.go), and the
  feature disappears from the matrix.
* **C24** `c24_numerical_target`, `c24_missing_target`: `WriteLibSvm` writes a numerical target with the fewest
  digits, and `ParseLibSVM` decides by a point in the first target whether targets are numbers (libsvm.go), so
  numbers come back as categories; missing categorical targets are written as category 0.
* **C60** `c60_last_line`: `ParseLibSVM` stops on the error of `ReadString` before looking at the text it returned,
  so a last line without line end is dropped.
* **C61** `c61_imputed`: `WriteLibSvmCases` calls `ImputeMissing` on features that it shares with the matrix that
  is written, which has no missing values afterwards.
* **C59** `c59_percent`: `ParseARFF` sets `%` as comment character of the csv reader, and the writer does not quote
  it: cases whose first value begins with `%` are lost.
* **C44** `c44_octal`: `ParseInt` is called with base 0 (utils.go:130): `010` means 8 and `09` means 0.
* **C62** `c62_marks_cleared`: `NewGradBoostTarget` reads the stored values of missing cases into the prior, and `Put`
  clears their missing marks (gradboosttarget.go:20-31, densenumfeature.go:96-99), so growforest samples them
  (growforest.go:628-633).
* **C63** `c63_perfect_tree`: with error zero the tree weight is `.5 * log(1/0)`, an infinity, every case weight is
  multiplied by `exp(-Inf)`, and the normalisation divides zero by zero (adaboosttarget.go:124-157).
* **C64** `c64_one_sided`, `c64_parent_impurity`: an empty side makes the out-of-bag score NaN, so the feature is never
  taken (featurematrix.go:225-229 with densecatfeature.go:1070-1078); with both options the search against the
  shuffled target is given the impurity of the sampled cases but the out-of-bag cases (featurematrix.go:229-238).
* **C107** `AdaBoostTarget`, `AdaCostTarget` and `NumAdaBoostTarget` have `Boost(leaves)` where the interface
  `BoostingTarget` (featureinterfaces.go:95) asks for `Boost(partition, preds)`. The type assertion of growforest.go:683
  panics for them (`c107_adaboost`, `c107_adacost`), and the type switch of `GrowRandomForest` (forrest.go:62-66) never
  boosts with them (`c107_library`).
* **C38** `c38_regret_missing`, `c38_ada_plain_mode`: `RegretTarget.FindPredicted` counts missing cases as category 0
  (regrettarget.go:92); `AdaBoostTarget` has no `FindPredicted`, so the embedded feature's unweighted mode is used.
* **C67** `c67_dentropy`: `DEntropyTarget.SplitImpurity` calls `Impurity`, which ignores the costs, and the update calls
  `ImpFromCounts`, which uses them; `NewDEntropyTarget` makes them all zero (dentropytarget.go:22-37, 39-83).
* **C68** `c68_half`: `ImpFromCounts` adds the counts to `t`, which already is the number of cases
  (regrettarget.go:110-118).
* **C70** `c70_not_hellinger`: no square roots (hdistancetarget.go:48-61).
* **C71** `c71_increase`, **C75** `c75_ada_increase`: the blocks are weighted by number of cases, the impurities by
  weight.
* **C73** `c73_positive_beta`: the comment of `FindPredicted` says that only leaves without labelled cases are predicted
  unlabelled; with `-trans_beta` above 0 others are.
* **C74** `c74_grad_lost`: the impurity of a pure missing block is 0 and not the sentinel -1, which lowers the value by
  the fraction of missing cases (gradboosttarget.go:62-71 with densenumfeature.go:266-268).
* Not a theorem: the comment of `EntropyTarget.Impurity` says log2; the code takes the natural logarithm.
* **C33** `DenseNumFeature.Copy` sets `HasMissing` to false (densenumfeature.go:647), so the copy of a feature with missing values splits as if it had none: `c33_num_flag`. `DenseCatFeature.Copy` shares the hash map and the array of `Back`: a category added to the copy is found, without a name, in the original: `c33_cat_shared`.
* **C39** The entry of a categorical split holds threshold 0 whatever its categories, and missing branches have no entry: `c39_category_lost`, `c39_missing_lost`.
* **C40** The training set of a fold is the other folds, not the complement of the test set: with a remainder (`c40_leftover`) or a missing target (`c40_unclassed`) cases are in no file at all.
* **C76** The columns made by `EncodeToNum` hold the `Missing` slice of the original (densecatfeature.go:33, 45): `c76_shared_marks`.
* **C77** The absolute error is measured about the mean, which is also the prediction, not about the median: `c77_not_least`.
* **C78** A division can raise the absolute error (`c78_l1_increase`) and the ordinal error (`c78_ordinal_increase`).
* **C80** A tree without error gets weight +Inf, and Inf·0 = NaN becomes every weight: `c80_perfect`. NumAdaBoostTarget does not implement `BoostingTarget` (its `Boost` has one argument), so `growforest -adaboost` with a numerical target never reweighs: it panics after the first tree (C107).
* **C82** If only one class occurs the prior is infinite and each leaf predicts 0/0: `c82_one_class`.
* **C83** With learning rate one a leaf of one rare and one common case overshoots: `c83_less_likely`.
* **C84** Cases of unknown class count as not of the positive class, and writing labels clears the missing marks of the original, which are shared (densecatfeature.go:33, 45): `c84_marks_cleared`, `c84_counted_negative`.
* **C85** `first` is never set to false in `DenseNumFeature.Span` (densenumfeature.go:553-564), so the span of finite values is 0: `c85_num_zero`.
* **C86** Hence a density target divides by zero for each numerical feature: every density and impurity is +Inf: `c86_numeric`.
* **C87** Hence numerical features do not count for transduction: `c87_numeric_ignored`.
* **C88** `nodei.end = nj.end` (tree.go:313) changes a copy, so the cases of a joined node are forgotten and the common leaf predicts from the first node's cases only: `c88_joined_leaf`.
* **C89** Nodes are joined if `SplitImpurity > Impurity` of both together (tree.go:296-301). For Gini, entropy and sum of squares that never happens, so a jungle is a tree: `c89_never_joined`.
* **C92** Depth 0 stands for "not used" (tree.go:145-147, growforest.go:670-680), so a tree that uses a feature only at its root is not counted, and a second use below overwrites the root's depth: `c92_root_not_counted`, `c92_root_overwritten`.
* **C93** The blacklist goes through `data.Map`, which holds one feature per name: of two rows with the same name one stays a candidate (`c93_twin_remains`). If the file lists the target, it is counted as blacklisted and subtracted once more (growforest.go:307): `nFeatures` is one too small, and with one further feature the default `mTry` is 0 and the forest has no splits (`c93_target_listed`, `c93_no_tries`).
* **C94** "Percision (Actuall/Predicted)" divides the wrong predictions by all predictions (growforest.go:958), which is one minus the precision: `c94_not_precision`. A prediction of a label that the test data lack makes `predtotals[predi]` panic (945): `c94_unseen_label`. Cases with missing labels are counted under category 0 (939): `c94_missing_label`.
* **C95** The comment at stats.go:25 says that `p` is for mean(B) > mean(A); it is for mean(A) > mean(B), which is what growforest needs: `c95_direction`.
* **C96** With `-ace 1` the variance is 0/0, all p-values are NaN and no feature survives the cutoff: `c96_one_permutation`. Nor does a feature whose scores, and those of its contrast, do not vary: `c96_constant_scores`.
* **C24** `c24_bad_index`: an index that is not a number is only logged (libsvm.go:68-71); its value then replaces
  the line's target. `c24_negative_index`: a negative index panics.
* **C97** `-expit` has an effect only with `-sum` or an intercept (applyforest.go:93): `c97_expit_skipped`. A target of classes whose name begins with N, such as "Nationality", is taken for numeric (65), and all predictions are "NA": `c97_name`. The error (78) ignores the intercept that is added to the predictions, and with `-sum` is the constant 1 (sumballotbox.go:75-79): `c97_error`, `c97_error_witness`.
* **C101** `splits` is a plain map that all threads write without a lock (leafcount.go:89-105): a split can be lost (`c101_race`), or the Go runtime stops the program for concurrent map writes.
* **C102** `fm.Map[s.Feature]` is 0 for a name that is not there (splitter.go:31), so the first feature is consulted instead: `c102_unknown`, `c102_witness`. This goes for features of the other kind too: the kind of the feature, not of the splitter, decides how values are compared.
* **C103** With `-nobag` and `-nSamples` equal to the number of all cases while some targets are missing, the list is made from the first `nNonMissing` cases only (growforest.go:605-611), so known cases after these are in no tree: `c103_tail_lost`.
* **C104** With gradient boosting the out-of-bag prediction is the mean of the trees' residuals (growforest.go:394-405), while the model predicts the intercept plus their sum times the learning rate: `c104_boosted`, `c104_boosted_witness`. With boosted classes it counts numbers as if they were names of classes, so the reported error is 1: `c104_class_boosted`.
* **C105** Marking can make names equal: numerical features "age" and "N:age" are both written as "N:age" (utils/toafm/main.go:94-96), and the index of the file that is read finds only the second: `c105_collision`.
* **C106** A name given as `-anontarget` that is not in the data is not reported (featurematrix.go:28-35); the first feature stays first, as if it had been named: `c106_unknown_target`.
* **C108** The options are tried in order and the first is taken (growforest.go); the others are ignored without a message: `c108_ignored`.
* **C109** The weighted cost of the errors is compared with one half, but the costs are not normalised (adacosttarget.go:131-170): multiplying all of them by a constant decides whether a tree is accepted, `c109_scale`. A class that is not listed has cost 0, and its cases lose all weight: `c109_unlisted`.
* **C110** With costs that are all zero in a leaf the prediction is NaN, `c110_zero`; cases of missing class count as the first class, `c110_missing`; and `FindPredicted` asks for the number of "True" by `CatToNum`, which adds the category if it is absent (dentropytarget.go:87): `c110_no_true`.
* **C112** `GrowRandomForest` samples from all cases (forrest.go:55-60), those of unknown target included; growforest itself leaves them out. `c112_unknown`.
* **C113** `treesFinished` is counted only if progress is reported (growforest.go:722-725), so without `-progress` every tree in the file is tree 0: `c113_zero`.
* **C114** With `-adaboost` or `-gbt` the default leaf size is a third of the known cases (growforest.go:366-367), which is 0 for one or two: `c114_zero`.
* **C115** `-impute` imputes all features, the target too (growforest.go:316-319): cases of unknown class get the most frequent one and are trained on and scored: `c115_impute`.
* **C23** `c23_quotes`: `WriteCases` puts nothing in quotes (featurematrix.go), while `ParseAFM` reads with encoding/csv: a value in quotes loses them, and a value with a quote elsewhere ends the reading, so all features from there on are lost without an error.
* **C118** `c118_vet_oob`: with `-vet -evaloob` the shuffled target is searched for splits among the out-of-bag cases (featurematrix.go:231-238), in scratch slices made for `nSamples` cases (growforest.go:618). With fewer samples than out-of-bag cases the search panics.
* **C119** `c119_oob_votes_lost`: without `-test` a worker grows all its trees in one object; nodes that become leaves keep the children of the tree before, and `VoteCases` (tree.go:414), which knows leaves by missing children, casts no votes for them. The out-of-bag error of growforest leaves these cases out. The forest file is not affected.
* **C120** `c120_bag_not_fair`: `ShuffleCases` (densecatfeature.go:1164-1181, densenumfeature.go:611-628) swaps the value of each listed case with that of a later one. For a bag drawn with replacement (as when vetting, featurematrix.go:237) a case is listed more than once and the arrangements are not equally likely: for the cases 1, 0, 0 four of the six sequences of draws exchange the values and two leave them.
* **C121** `c121_last_case`: the loop of `BestNumSplit` (densenumfeature.go:303-304) stops one case early, so that a threshold always leaves more than `leafSize` cases on the right: two cases of different classes stay together with `leafSize` 1. `c121_missing_apart`: a feature whose missing values tell the classes apart is not split on if its known values do not (densenumfeature.go:266, densecatfeature.go:221).
* **C122** `c122_not_least`: doc.go:84 and the comments promise mean squared error. `Impurity` (densenumfeature.go:481) is the sum of squared deviations, not their mean, and `SplitImpurity` (394-431) multiplies these sums by the sizes of the sides once more. The split chosen can have nearly twice the squared error of another one.
* **C123** `c123_kinds`, `c123_costs`, `c123_costs_large`: the shuffled target is `target.Copy()` (splitallocations.go:69), the bare feature, which measures Gini impurity or squares even if the target measures entropy, costs or anything else; but the impurity of the node that its splits are compared with is the target's own (featurematrix.go:174, 238). With small costs vetting raises the scores of features a hundredfold; with large ones nothing is ever split. `c123_repeated`: even in the same measure, shuffling a bag with repeated cases changes its composition, but not the impurity compared with. `c123_density`: `-density -vet` panics (featurematrix.go:170).
* **C124** `c124_large_unit`: values less than constant_cutoff (10⁻⁷) apart count as equal (densenumfeature.go:308, 325), whatever the unit, so a feature measured in large units is taken for constant. `c124_vet_order`: with vetting the order in which cases with equal values stand decides what they get in the shuffle. `c124_cube`: a threshold is halfway between two values in the unit used, so that in units that are not affine new cases may go another way.
* **C125** `c125_neighbours`: the mean of two neighbouring doubles rounds to one of them (densenumfeature.go:355-357); if to the larger, every case goes left, the reported decrease is not had and the right child is empty. `c125_overflow`: the two values are added before they are halved, so that the threshold of values above 2¹⁰²³ is +Inf. `c125_small_values`: a feature whose values are all less than 10⁻⁷ apart is called constant (densenumfeature.go:300).
* **C126** `c126_negative`, `c126_divides_equal`: the variance is computed as Σv² − (Σv)²/n (densenumfeature.go:394-495), which rounds to a negative number for five cases with the target 98.6. A negative parent impurity is also the convention for "maximise the impurity of the division" (densenumfeature.go:334-352), so that nine cases which all cost 19999.95 are divided with the default leaf size of four. `c126_seconds`: the targets 2³⁰ and 2³⁰ + 1 (seconds since 1970) have computed variance zero, and are never told apart. `c126_drift`: sums kept up to date lose small targets that once stood beside a large one.
* **C127** `c127_outside`: the mean of three cases with the target 98.6 is below 98.6.
* **C128** `c128_onehot`: `-onehot` does nothing, the matrix that `OneHot` returns is dropped (utils/nfold/main.go:148-151). `c128_libsvm_empty`: with `-writelibsvm` and a target of three or more classes every file is empty, as the encoded matrix has no feature of the target's name and the error is dropped. `c128_target_lost`: `-maxcats` below the number of classes drops the target from all files. `c128_num`: `-num` encodes the target before the folds are drawn, so that classes are never stratified with it (utils/nfold/main.go:153-178).
* **C129** `c129_impute`, `c129_libsvm`: with `-impute`, and always with `-writelibsvm`, missing values of training cases are filled with the mean of all cases, test cases included.
* **C130** `c130_last_case`: two cases of different classes and values stay in one leaf, since no threshold with one case on the right is tried (densenumfeature.go:322-329). `c130_xor`: where only two features together tell the classes apart no single division lowers the impurity and the tree is one leaf.
* **C131** `c131_last_case`: two cases with targets 0 and 100 stay together. `c131_small`: targets that differ by 1e-4 are never divided, because the least gain of 1e-7 is absolute.
* **C132** `c132_reused`: growforest grows the same tree object again (growforest.go:600, 664-668), and below what is now a leaf there can be nodes of an earlier tree. `Tree.Partition` (tree.go:363-382) goes on into them and leaves out the cases of the leaf, so `Boost` does not update their residuals, but the file has the leaf and its prediction. With `-gbt 0.5 -nobag` and five cases the fourth tree raises the error from 12/25 to 3. `c132_bag`: with sampling with replacement (always in forrest.go:62) a tree fitted to its bag can raise the error on all cases.
* **C133** `c133_bag`: `Boost` weighs a tree as if each leaf predicted the most frequent class of all cases in it, but the leaf predicts the most frequent class of its sample (adaboosttarget.go:118-119, 130-136, tree.go:172). A tree that is wrong for nine of ten cases gets the weight log 3.
* **C135** `c135_unweighted`: a decrease is added to a feature's importance as it is, whether the split divides all cases or few (tree.go:142-144). A feature that removes 7/32 of impurity is reported as 7/16, before one that removes 9/32 and is reported as such; together they exceed the impurity there was.
* **C136** `c136_agree`: the running mean multiplies the mean by the count and divides again (utils.go:36); three trees that all predict 0.1 make the forest predict 0.10000000000000002. `c136_schedule`: votes 0.1, 0.2, 0.3 give 0.20000000000000004, in reverse order 0.19999999999999998; with several workers predictions may differ from run to run.
* **C137** `c137_tie`: a leaf whose classes are equally frequent predicts the class that appears first in the file, also if that case is not in the leaf (densecatfeature.go:1115). `c137_rounded`: in double precision the Gini impurity of class counts 1, 2, 4 differs in the last digit from that of 4, 2, 1, so that the order of lines in the file can decide between divisions of equal worth.
* **C139** `ParseARFF` takes data records with fewer fields than there are attributes and returns a matrix with empty columns (`c139_arff_short`); `ParseAFM` drops everything from the first line with another number of fields on without an error (`c139_truncated`).
* **C140** a categorical target whose name begins with N is grown as classes, but applyforest takes it for numbers and predicts "NA" throughout unless told with `-mode` (`c140_name`).
* **C141** with `-threads 0` or less leafcount waits for ever for reports of threads it has not started (`c141_no_threads`).
* **C142** `DensityTarget` follows Ram and Gray, whose loss of a leaf is −|t|²/(N²V). The code leaves out the minus sign and weights children by their sizes, so its search prefers divisions that separate nothing (`c142_equal_density`) and, among halves, orders them backwards (`c142_halves`, `c142_wrong_division`).
* **C143** a class that is not in the map given with `-cost`, `-dentropy` or `-rfweights` gets the number zero. A leaf of such classes only predicts the class that came first in the data, even if the leaf has none of it (`c143_unlisted`), and with `-rfweights` its impurity is NaN, so such classes are never separated from the others (`c143_never_divided`).
* **C144** applyforest on a file that lacks a feature of the forest does not treat its value as missing. `fm.Map[name]` gives 0 for an unknown name, so the first column is used, numerical or not; two files with the same columns in another order get different predictions (`c144_absent`, splitter.go:31).
* **C146** with `-splitmissing` the right branch of each node is written a second time in place of its missing branch (forestwriter.go:71), and so on below: a tree of n splits down its right side has 3n+1 nodes and is written in 3·2ⁿ−2 lines (`c146_doubling`); a tree grown from six cases has seven nodes and ten lines (`c146_more_lines`).
* **C140** `-balance` with a numerical target panics in a type assertion (growforest.go:346, `c140_balance`).
* **C147** `treesStarted` begins at `nCores` (growforest.go:581), so more workers than trees give as many trees as workers (`c147_more`); `-nCores 0` ends without an error and an empty file (`c147_none`).
* **C148** Without `-test` growforest grows one tree object again, and from the third tree on the residuals may be reduced wrongly, so that predictions move away from the target (`c148_reused`, the same cause as C132); missing targets count as zero (`c148_missing`, the same cause as C62); the file does not record that answers are to be added (`c148_mean`).
* **C149** applyforest panics on such a forest unless `-sum` or `-mean` is given or the prior is zero (`c149_panics`); a positive class that does not occur, such as the default "True", makes every prediction NaN (`c149_absent`); missing classes count as negative (`c149_missing`, the same cause as C84); without `-test` a tree object is grown again and answers may go the wrong way for ever (`c149_reused`, the same cause as C132).
* **C150** growing a tree never ends for four cases with two neighbouring numbers of double precision as values (`c150_neighbours_never_end`; the rounded threshold is the larger value, all cases go left and the left child is the same problem again) and for values whose sum overflows (`c150_overflow_never_ends`). In exact numbers the first ends with two leaves (`c150_neighbours_exact`).
* **C151** what is false of C121 and C130 in exact numbers is false in double precision: two cases with different values of the only feature stay in one leaf (`c151_last_case`); and values that are too near to each other make growing endless (`c150_neighbours_never_end`).
* **C152** what is false of C131 in exact numbers is false in double precision (`c152_last_case`); and where sums are not exact, cases that all have the same target are divided, nine prices of 19999.95 for example, although nothing is gained (`c152_divides_equal`).
* **C153** a regression tree depends on the unit of its target: the threshold 1e-7 of improvement is not in the unit of the target, and targets in ten-thousandths are not told apart (`c153_unit`). In double precision it depends on the origin: nine equal targets of 19999.95 are divided, nine zeros are not (`c153_rounding`).
* **C154** where several classes are equally frequent in a leaf the prediction is the one with the lowest number, so it depends on the order in which classes were first seen (`c154_tie`).
* **C155** they do not add up exactly: a small value of the target is lost when the prior is subtracted from it (`c155_exact`).
* **C156** it is false for other units, because a division must decrease the impurity by 1e-7 (`c156_unit`), and in double precision for large origins (`c156_rounding`).
* **C157** a case whose class is missing counts as not positive, so it is on the other side when the other class is called positive (`c157_missing`). Double precision is not covered.
* **C158** a leaf all of whose probabilities equal their class (1 for positive cases, 0 for others) divides zero by zero and predicts NaN (`c158_settled`), and this is where well separated data end: a leaf kept pure in the positive class predicts NaN within 40/learning rate trees (`c158_diverges`, for learning rates of 2^-j). From then on the log odds of its cases are NaN, and so is what the forest predicts for every case that falls into such a leaf. `GradBoostClassTarget.Predicted` (gradboostclasstarget.go:87-101) does not guard against a zero denominator.
* **C159** workers grow their trees from the same residuals, and each takes its share away as if it were alone. With W workers in step the residuals are multiplied by 1 - W·lr where the trees agree: with three workers and a learning rate of one the error is four times as large after every round (`c159_diverges`), where one worker has none left after one tree. At a learning rate of 0.1 this needs more than 20 workers. `boostMutex` (growforest.go:680-683) guards the update, but not `tree.Grow` (668), which reads the residuals while others change them.
* **C160** for another table that lacks a feature of the forest, its first column is used in place of that feature, as in C144 (`c160_absent`).
* **C162** for another table that lacks a feature of the forest, its first column is used in place of that feature, as in C144 (`c162_absent`).
* **C163** For large samples whose means differ clearly, the last sum of the continued fraction in `regularizedIncompleteBeta` is smaller than the rounding error of its terms, and the probability is arbitrary, also above 1/2 or below 0: with the importances of 501 permutations about 9/16 and those of the contrast about 0, both of variance 1, `Ttest` gives at least 1/2 in place of less than 10⁻¹², and ACE drops the feature (`c163_double`).
* **C164** Without a cutoff the forest that `-ace` writes is the last of those with contrasts, and splits on features that no table has (`c164_contrasts_written`).
* **C164** The contrast of a numerical feature with missing values is not marked to have any (`Copy`, C31), so that its search takes the zeros in their place for values, which the feature itself does not; the comparison is not of like with like. The theorems on importances suppose that numbers have no missing values.
* **C164** With a negative cutoff the importances of the last forest are not recorded (growforest.go:784), and the columns compared contain zeros for it. The model leaves this out.
* **C165** forestwriter.go:70-72 writes the right branch where the branch for missing values belongs. A case that lacks a value is predicted from the file as if its value were on the right, and a class that only occurs among such cases is never predicted (`c165_other_side`).
* **C167** Ties are broken anew whenever `CatBallotBox.Tally` is called (catballotbox.go:54-75), so the error that applyforest prints need not be that of the predictions it writes: it can print 0 and write half of the classes wrongly (`c167_tie`). `-mean` with classes, `-mode` with numbers and classes under a name beginning with N panic in `TallyError` if the data have the target (`c167_name`, `c167_mode`), before anything is written. A case of known target that no tree answers is written as "NA" but counts as predicted 0 in the error (part of `c167_numbers_partial`, as C52).
* **C168** `-ordinal` makes trees predict modes, but applyforest averages them as numbers (applyforest.go:57-67), so that 3/2 can be predicted on a scale of 0, 1 and 3 (`c168_between`). With `-mode` the votes are counted as they should be, but `TallyError` panics on the numerical target before predictions are written, if the data have the target (`c168_mode`). Negative numbers panic in `Mode` (`c168_negative`), as the comment of `OrdinalTarget` would let one expect.
* **C169** applyforest has no `-impute` (applyforest.go:13-28), so cases with missing values, though they were used for growing, are not predicted by trees that split on these features (`c169_refused`). The target is filled in as well (growforest.go:317-320), and cases of unknown class then count with the most frequent class; this can turn all predictions of another class (`c169_target`, as C115). A number that is never known is filled in with NaN, which is not treated as constant (densenumfeature.go:308, 325) and is split on; no case is predicted then (`c169_never`).
* **C171** From its second tree on a worker grows in an old tree object, and where the new tree has a leaf above old nodes its out-of-bag votes are not cast (`c171_lost`, the same cause as C42): with two bags, one of them of a single class, all of its votes are lost while the file has the leaf. A case in all bags is not left out of the error but counted as wrong, or as predicted 0 (`c171_inside`): with `-nobag` the out-of-bag error is 1 for classes whatever the trees say.
* **C172** A worker takes a new tree object while `treesStarted < nTrees-1` (growforest.go:716) but grows another tree while `treesStarted < nTrees` (726). So with more trees than workers, as by default, one tree of the file never votes in a test and a later one votes twice (`c172_lost`, for every schedule). As the later tree is grown over the old one its leaves above old nodes do not vote either: two trees on four cases give the error 1 in growforest and 0 in applyforest, or 0 in growforest and 1/2 in applyforest (`c172_error`).
* **C173** As in C92, depth 0 stands for "not used" (tree.go:145, growforest.go:672), so trees that use a feature only at the root do not count: two trees that both split on the number give the line "0 trees" and an infinite importance per tree that uses it (`c173_root`). What the columns do give, uses below the root only, is proved.
* **C174** Each NaN is a key of its own in the map (densenumfeature.go:536), so that a value of one case may be returned though three cases have NaN (`c174_nan`). Between values that occur equally often the order of the map decides, so two calls may differ; without a known case the result is zero, a value no case need have (`c174_tie`). Without NaN and ties the most frequent value is proved to be returned.
* **C175** What is in a zip archive is always read by `ParseAFM` (featurematrix.go:417), also if it is an ARFF or libsvm file: files that can be loaded panic when packed (`c175_packed`). An archive without files panics (`r.File[0]`, featurematrix.go:415), and an ARFF file without `@data` gives neither a matrix nor an error (`c175_empty`).
