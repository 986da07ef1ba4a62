{"id": "C01", "title": "Splitting a case list is an exact three-way partition", "statement": "Splitting a list of case numbers on a feature (Splitter.Split, and Split/SplitPoints of both dense feature types) rearranges the list in place into left, missing, right blocks: nothing is lost, duplicated or invented, every case in the left block is a non-missing case that goes left, every case in the right block is a non-missing case that does not go left, every case in the missing block is missing, and the split never reads outside the list and always terminates.", "quantifier": "for every feature, every splitter or coded split, and every list of case numbers, including lists with repeated cases and empty lists", "why_tests_cant": "The loop swaps elements while its index moves backwards; a test sees a few orders of a few cases, the claim is about every arrangement of left/right/missing in lists of every length.", "anchors": ["splitter.go:Splitter.Split", "densenumfeature.go:DenseNumFeature.Split,SplitPoints", "densecatfeature.go:DenseCatFeature.Split,SplitPoints"]}
{"id": "C02", "title": "A coded split and its decoded splitter route every case the same way", "statement": "For a categorical feature, splitting by the integer or big-integer code found during growth and splitting by the Splitter that DecodeSplit builds from that code give the same left, right and missing blocks; likewise for a numerical threshold. Hence replacing coded splits by decoded splitters (Tree.StripCodes) changes no case's path through a tree on the training matrix.", "quantifier": "for every feature whose stored category codes are valid, every code, every list of cases, every tree whose coded nodes name features registered under their own name", "why_tests_cant": "There are 2^k codes for k categories and the decoded form goes through strings; tests check codes 0, 1, 2 and 6 on one feature.", "anchors": ["densecatfeature.go:DenseCatFeature.DecodeSplit,Split,SplitPoints", "densenumfeature.go:DenseNumFeature.DecodeSplit", "splitter.go:Splitter.Split", "tree.go:Tree.StripCodes"]}
{"id": "C03", "title": "Routing by a decoded categorical splitter depends on names only", "statement": "Two categorical features that show the same category strings for the same cases are split identically by the same splitter even if their internal numbering differs; a category that the splitter does not list goes right.", "quantifier": "for every pair of features that agree on GetStr/IsMissing for every case, every splitter, every list of cases", "why_tests_cant": "Numbering depends on the order categories first appear in a file, so the number of orders is factorial; a test fixes one train file and one test file.", "anchors": ["densecatfeature.go:DenseCatFeature.GoesLeft", "catmap.go:CatMap.CatToNum", "splitter.go:Splitter.Split"]}
{"id": "C04", "title": "Category numbering is a stable bijection", "statement": "After any sequence of CatToNum calls, distinct categories have distinct numbers, the numbers in use are exactly 0..NCats-1, NumToCat inverts CatToNum, NCats counts the distinct categories seen, and a number once assigned never changes.", "quantifier": "for every finite sequence of category strings", "why_tests_cant": "The state space is all call histories; a test replays one history.", "anchors": ["catmap.go:CatMap.CatToNum,NumToCat,NCats"]}
{"id": "C05", "title": "SortBy sorts cases and values together", "statement": "SortBy terminates without an out-of-range access, rearranges cases and the corresponding values by one common permutation, leaves values beyond the cases untouched, and, if no value is NaN, leaves the values in ascending order.", "quantifier": "for every pair of slices with at least as many values as cases, of every length (insertion sort, quicksort with ninther, and heap sort fall-back paths alike)", "why_tests_cant": "The heap-sort fall-back and the ninther path need adversarial or long inputs; the tests sort 5 and 11 elements and the heap-sort tests are commented out.", "anchors": ["sortby/sortby.go:SortBy", "sortby/sortby.go:quickSort,doPivot,heapSort,insertionSort"]}
{"id": "C06", "title": "Every case casts exactly the vote its path dictates", "statement": "Tree.VoteCases gives each listed case one vote per occurrence, for the prediction of the leaf reached by walking the tree from the root and comparing that case alone; a case whose value is missing at a node without a missing branch casts no vote. The order of the case list does not matter.", "quantifier": "for every tree in which nodes with a splitter have both children, every feature matrix, every case list with repetitions", "why_tests_cant": "Votes come from a recursion that permutes shared slices in place; the claim is about all trees and all case lists.", "anchors": ["tree.go:Tree.Vote,VoteCases", "node.go:Node.Recurse", "splitter.go:Splitter.Split"]}
{"id": "C07", "title": "Partition, GetLeaves and Vote see the same leaves", "statement": "Tree.Partition and Tree.GetLeaves return disjoint groups of cases, one per leaf visited; together they contain exactly the cases that vote, each as often as it was listed, and a leaf's group holds exactly the cases that VoteCases gives that leaf's prediction. Partition lists predictions in the same order as the groups.", "quantifier": "for every well formed tree, matrix and case list", "why_tests_cant": "Same as for votes: all trees, all lists.", "anchors": ["tree.go:Tree.Partition,GetLeaves,VoteCases"]}
{"id": "C08", "title": "A grown leaf predicts from exactly the training cases that reach it", "statement": "After Tree.Grow on a fresh tree, each leaf's prediction is the target's FindPredicted value of exactly those in-bag cases that voting the in-bag cases down the finished tree (before or after StripCodes) sends to that leaf; the only other leaves are missing branches that no in-bag case reaches (see C45).", "quantifier": "for every feature matrix, target, case list, candidate list, random stream and option setting that finishes growing", "why_tests_cant": "It relates two different recursions (over coded splits while growing, over the finished tree while voting) for all data sets.", "anchors": ["tree.go:Tree.Grow,StripCodes,VoteCases", "node.go:Node.CodedRecurse,Recurse"]}
{"id": "C09", "title": "Leaf size and depth limits hold, and growth always stops", "statement": "With leaf size at least one, Tree.Grow terminates, every left or right child holds at least leafSize in-bag cases, and when maxDepth is positive no node lies deeper than maxDepth.", "quantifier": "for every data set of finite numbers and categories (infinite values: C47), every target, random stream and option setting with leafSize >= 1 and mTry at most the number of candidate features (larger mTry: C49)", "why_tests_cant": "Leaf-size violations need particular value patterns (ties, missing values); termination is a statement about all inputs.", "anchors": ["tree.go:Tree.Grow", "densenumfeature.go:DenseNumFeature.BestNumSplit", "densecatfeature.go:DenseCatFeature.BestCatSplit,BestBinSplit,BestCatSplitIter"]}
{"id": "C10", "title": "The numerical split search returns the best evaluated threshold and its true gain", "statement": "When BestNumSplit reports a split, the reported impurity decrease equals the parent impurity minus the impurity of the partition the returned threshold actually produces, no threshold between two distinct values that leaves at least leafSize cases on the left and more than leafSize on the right has a larger decrease, and the input cases are only reordered.", "quantifier": "for every numerical feature with finite values and without near ties (distinct values more than the constant cutoff apart), every target whose incremental impurity equals its recomputed impurity, every case list", "why_tests_cant": "The search updates impurity incrementally and skips ties; errors show only for particular tie patterns.", "anchors": ["densenumfeature.go:DenseNumFeature.BestNumSplit,SplitPoints", "densenumfeature.go:DenseNumFeature.SplitImpurity,UpdateSImpFromAllocs"]}
{"id": "C11", "title": "The exhaustive categorical search returns the best admissible partition", "statement": "For a feature small enough for exhaustive search, BestCatSplit returns a code whose partition leaves at least leafSize cases on each side, whose reported decrease is that partition's decrease, and no division of the categories into two groups with at least leafSize cases on each side has a larger decrease (up to exchanging left and right).", "quantifier": "for every categorical feature with at most ten categories, every target with symmetric impurity, every case list", "why_tests_cant": "2^(k-1)-1 partitions for each data set.", "anchors": ["densecatfeature.go:DenseCatFeature.BestCatSplit,BestBinSplit,DecodeSplit"]}
{"id": "C12", "title": "The iterative categorical searches report what their code does", "statement": "BestCatSplitIter and BestCatSplitIterBig return a code that leaves at least leafSize cases on each side and whose reported decrease is the decrease of the partition the code produces; the reported decrease is at least that of every admissible single-category split, and the integer and big-integer versions return the same result.", "quantifier": "for every feature, target and case list", "why_tests_cant": "Greedy search paths depend on all data values.", "anchors": ["densecatfeature.go:DenseCatFeature.BestCatSplitIter,BestCatSplitIterBig"]}
{"id": "C13", "title": "Incremental impurity equals recomputed impurity", "statement": "Moving a block of cases from right to left and calling UpdateSImpFromAllocs gives the same split impurity as SplitImpurity computed from scratch on the new sides, and leaves the counters or sums as a from-scratch computation would.", "quantifier": "for categorical (Gini) and numerical (sum of squares) targets, for every left/right/moved case lists, including cases with missing target values, and every chain of moves", "why_tests_cant": "The chain of updates has unbounded length; floating error aside, a wrong term would show only for some blocks.", "anchors": ["densecatfeature.go:DenseCatFeature.UpdateSImpFromAllocs,SplitImpurity,MoveCountsRtoL", "densenumfeature.go:DenseNumFeature.UpdateSImpFromAllocs,SplitImpurity"]}
{"id": "C14", "title": "Gini impurity is a proper impurity", "statement": "Gini impurity of a non-empty set of cases with known target lies in [0,1), is zero exactly when all those cases have one category, does not depend on case order or category numbering, and no two-way or three-way split increases it on average.", "quantifier": "for every categorical target and every case list without missing target values", "why_tests_cant": "An inequality over all count vectors.", "anchors": ["densecatfeature.go:DenseCatFeature.Gini,GiniWithoutAlocate,ImpFromCounts,SplitImpurity"]}
{"id": "C15", "title": "Regression impurity is the sum of squared deviations and splits never increase it", "statement": "Impurity of a numerical target is the sum of squared deviations from the mean of the known target values, is never negative, is zero exactly when they are equal, and the weighted impurity of any split is at most the parent's.", "quantifier": "for every numerical target and case list", "why_tests_cant": "An inequality over all real vectors; the code uses the sum-of-squares shortcut rather than the definition.", "anchors": ["densenumfeature.go:DenseNumFeature.Impurity,SplitImpurity,SumAndSumSquares,Mean"]}
{"id": "C16", "title": "Missing values are charged by three-way impurity", "statement": "When a candidate feature has missing values, the decrease reported by BestSplit is parent impurity minus p(l)I(l)+p(r)I(r)+p(m)I(m) for the three blocks the split produces.", "quantifier": "for every feature with missing values, target with non-negative impurity, and case list", "why_tests_cant": "The code reaches the formula by correcting a two-way result; equality is algebra over all counts.", "anchors": ["densecatfeature.go:DenseCatFeature.BestSplit", "densenumfeature.go:DenseNumFeature.BestSplit"]}
{"id": "C17", "title": "BestSplitter samples candidates safely and keeps the known constants in place", "statement": "With at most as many tries as candidates, BestSplitter never indexes outside the candidate list, only permutes it, leaves the features already known constant at its end where they are, adds newly found constants directly before them, never evaluates a feature twice or a known constant at all, evaluates at most mTry features unless forced, and returns the best of the evaluated splits.", "quantifier": "for every matrix, candidate list, number of known constants, random stream and option setting with mTry at most the number of candidates", "why_tests_cant": "The index arithmetic depends on the random stream and on which features turn out constant.", "anchors": ["featurematrix.go:FeatureMatrix.BestSplitter"]}
{"id": "C18", "title": "Skipping constant features loses nothing", "statement": "If BestSplit reports a feature constant on a set of cases, then on every subset of those cases no admissible split on that feature exists that the search could return.", "quantifier": "for every numerical feature and every categorical feature searched exhaustively, every case list and sub-list", "why_tests_cant": "A statement about all subsets.", "anchors": ["featurematrix.go:FeatureMatrix.BestSplitter", "densenumfeature.go:DenseNumFeature.BestNumSplit", "densecatfeature.go:DenseCatFeature.BestCatSplit,BestBinSplit"]}
{"id": "C19", "title": "SampleFirstN draws without replacement", "statement": "SampleFirstN never panics, only permutes the deck, never moves the last nconstants cards, and returns a prefix of the deck of at most n cards, exactly min(n, deck size) if there are no constants, all different positions of the original deck.", "quantifier": "for every deck, n, number of constants up to the deck size, and random stream", "why_tests_cant": "All random streams and deck sizes.", "anchors": ["sampeling.go:SampleFirstN"]}
{"id": "C20", "title": "Bagging and balanced sampling return the requested cases", "statement": "SampleWithReplacment returns n case numbers each below the total. BalancedSampler returns n cases, all with known target; every returned case belongs to the class drawn for it, and every case with known target can be drawn. The out-of-bag list is exactly the complement of the in-bag list.", "quantifier": "for every target, sample size and random stream with no empty class", "why_tests_cant": "All random streams.", "anchors": ["sampeling.go:SampleWithReplacment,NewBalancedSampler,BalancedSampler.Sample", "growforest/growforest.go:main"]}
{"id": "C21", "title": "A tree survives writing and reading", "statement": "Writing a tree whose splits are decoded with WriteTree and reading it back with ReadTree gives the same tree: same structure, predictions, splitters and weight, hence the same votes on every data set.", "quantifier": "for every tree without missing branches whose names avoid the format's delimiter characters", "why_tests_cant": "All trees and all names; tests check node counts of one forest.", "anchors": ["forestwriter.go:ForestWriter.WriteTree,WriteNodeAndChildren,WriteNode", "forestreader.go:ForestReader.ReadTree,ParseRfAcePredictorLine", "tree.go:Tree.AddNode"]}
{"id": "C22", "title": "A forest survives writing and reading", "statement": "Writing a forest and reading it back gives the same trees in the same order, the same intercept and target; reading a concatenation of forest files tree by tree yields the trees of the first followed by those of the second.", "quantifier": "for every forest of well formed trees", "why_tests_cant": "Unbounded lists of trees, header/no-header combinations.", "anchors": ["forestwriter.go:ForestWriter.WriteForest,WriteForestHeader,WriteTreeHeader", "forestreader.go:ForestReader.ReadForest,ReadTree"]}
{"id": "C23", "title": "A feature matrix survives writing and reading", "statement": "Writing selected cases of a matrix with WriteCases and reading the text with ParseAFM gives a matrix with the same feature names and types, the selected case labels and, for every feature and case, the same category or number or missingness.", "quantifier": "for every matrix whose strings avoid the delimiter characters and every list of cases", "why_tests_cant": "All matrices.", "anchors": ["featurematrix.go:FeatureMatrix.WriteCases,ParseAFM,ParseFeature"]}
{"id": "C24", "title": "Parsed libsvm matrices are rectangular and faithful", "statement": "After ParseLibSVM every feature has exactly one value per input line; the value of feature k in a line is the one written there, or zero if none is; writing an encoded matrix and parsing it back gives the same values.", "quantifier": "for every list of well formed lines", "why_tests_cant": "Features appear late, so padding depends on the whole history.", "anchors": ["libsvm.go:ParseLibSVM,WriteLibSvm"]}
{"id": "C25", "title": "Classification votes are tallied correctly", "statement": "CatBallotBox.Tally returns a category whose total vote weight for the case is maximal, \"NA\" if no positive weight was cast, whatever the map iteration order and whatever the order votes arrived in; it is unique unless there is a tie.", "quantifier": "for every sequence of votes and every map iteration order", "why_tests_cant": "Go's map order is random and arrival order depends on scheduling.", "anchors": ["catballotbox.go:CatBallotBox.Vote,Tally"]}
{"id": "C26", "title": "Regression votes average correctly", "statement": "NumBallotBox reports the weighted mean of the votes for a case, whatever order they arrive in, and \"NA\" exactly when none was cast; SumBallotBox reports the weighted sum.", "quantifier": "for every sequence of numeric votes with positive weights", "why_tests_cant": "A running update over unbounded histories.", "anchors": ["numballotbox.go:NumBallotBox.Vote,Tally,TallyNum", "sumballotbox.go:SumBallotBox.Vote,TallyNum", "utils.go:RunningMean.WeightedAdd,Read"]}
{"id": "C27", "title": "Concurrent voting loses no vote", "statement": "When several goroutines add to the same RunningMean, ballot box or SparseCounter, every interleaving of their steps ends in the state of some sequential order, so with exact arithmetic in the state of every order.", "quantifier": "for every number of goroutines, every list of votes per goroutine and every schedule", "why_tests_cant": "Schedules cannot be enumerated by running.", "anchors": ["utils.go:RunningMean,SparseCounter", "catballotbox.go:CatBallotBox.Vote", "numballotbox.go:NumBallotBox", "sumballotbox.go:SumBallotBox"]}
{"id": "C28", "title": "Classification error is one minus the mean per-class recall", "statement": "CatBallotBox.TallyError is the average over classes of the fraction of that class's cases predicted wrongly; it lies in [0,1], and is zero exactly when every case with known target is predicted right.", "quantifier": "for every set of votes and every target in which each class has a case", "why_tests_cant": "An identity over all confusion tables.", "anchors": ["catballotbox.go:CatBallotBox.TallyError"]}
{"id": "C29", "title": "Regression error measures", "statement": "NumBallotBox.TallySquaredError is the mean squared difference of prediction and target over cases with known target, TallyR2Score is one minus TallyError, and TallyError is the squared error divided by the target's variance.", "quantifier": "for every set of votes and every target", "why_tests_cant": "Identities over all vectors.", "anchors": ["numballotbox.go:NumBallotBox.TallySquaredError,TallyError,TallyR2Score"]}
{"id": "C30", "title": "The growforest worker pool grows the requested number of trees", "statement": "Under every schedule of its workers, growforest writes exactly max(nTrees, nCores) trees, every worker finishes, and the trees kept for testing are the trees written, each once.", "quantifier": "for every number of workers and trees and every interleaving", "why_tests_cant": "Schedules cannot be enumerated by running.", "anchors": ["growforest/growforest.go:main"]}
{"id": "C31", "title": "Shuffling permutes values together with their missingness", "statement": "Shuffle and ShuffleCases permute the (value, missing) pairs of a feature among the given cases and change no other case; an artificial contrast therefore has the same distribution as its original.", "quantifier": "for every feature, case list (with repetitions) and random stream", "why_tests_cant": "All random streams.", "anchors": ["densecatfeature.go:DenseCatFeature.Shuffle,ShuffleCases,ShuffledCopy", "densenumfeature.go:DenseNumFeature.Shuffle,ShuffleCases,ShuffledCopy"]}
{"id": "C32", "title": "Imputation fills exactly the missing values", "statement": "ImputeMissing leaves known values unchanged, gives every missing case the mean (numerical) or a most frequent category (categorical) of the known values, leaves nothing missing, and a second call changes nothing.", "quantifier": "for every feature with at least one known value", "why_tests_cant": "All data columns.", "anchors": ["densenumfeature.go:DenseNumFeature.ImputeMissing,Mean", "densecatfeature.go:DenseCatFeature.ImputeMissing,Modei"]}
{"id": "C33", "title": "Copies are equal to and independent of the original", "statement": "Copy returns a feature with the same observable values, and no later change to either shows in the other.", "quantifier": "for every feature and every later sequence of updates", "why_tests_cant": "Aliasing shows only after particular update sequences.", "anchors": ["densecatfeature.go:DenseCatFeature.Copy", "densenumfeature.go:DenseNumFeature.Copy"]}
{"id": "C34", "title": "Missing values are tracked", "statement": "After any sequence of appends and updates a feature's value and missing slices have the same length, stored category numbers are valid, MissingVals is true if any case is missing, and reading back the string stored at a case gives that string, or NA exactly for the missing-value tokens.", "quantifier": "for every sequence of Append, Put, PutStr, PutMissing, ImputeMissing and Shuffle calls", "why_tests_cant": "All call histories.", "anchors": ["densecatfeature.go:DenseCatFeature.Append,PutStr,PutMissing,GetStr", "densenumfeature.go:DenseNumFeature.Append,PutStr,Put,PutMissing,GetStr"]}
{"id": "C35", "title": "One-hot encoding is exact", "statement": "EncodeToNum of a categorical feature with more than two categories gives one indicator per category; for each case with known value exactly the indicator of its category is one and the rest are zero; with at most two categories one column carries the code. FeatureMatrix.EncodeToNum indexes every resulting column under its name.", "quantifier": "for every categorical feature and matrix with distinct names", "why_tests_cant": "All data columns.", "anchors": ["densecatfeature.go:DenseCatFeature.EncodeToNum,OneHot", "featurematrix.go:FeatureMatrix.EncodeToNum,OneHot"]}
{"id": "C36", "title": "Gradient boosting keeps prediction plus residual constant", "statement": "After any number of boosting rounds, for each case with known target: prior + learning rate times the sum of the tree predictions for the case + its current residual equals its original target value; and prior plus the SumBallotBox total is what is predicted.", "quantifier": "for every numerical target, every sequence of trees and every learning rate", "why_tests_cant": "A telescoping identity over unbounded rounds.", "anchors": ["gradboosttarget.go:NewGradBoostTarget,GradBoostTarget.Boost,Update", "tree.go:Tree.Partition", "sumballotbox.go:SumBallotBox"]}
{"id": "C37", "title": "AdaBoost weights stay a probability distribution", "statement": "After any number of Boost calls with error strictly between zero and one, the case weights are positive and sum to one, and the weight of a wrongly predicted case grows relative to a rightly predicted one exactly when the weighted error is below one half.", "quantifier": "for every target and sequence of leaf partitions", "why_tests_cant": "Unbounded rounds.", "anchors": ["adaboosttarget.go:AdaBoostTarget.Boost,NewAdaBoostTarget"]}
{"id": "C38", "title": "Leaf predictions are optimal for their target", "statement": "The category predicted at a leaf is one with maximal count (DenseCatFeature), maximal weighted count (WRFTarget, AdaBoostTarget), minimal total misclassification cost (RegretTarget); the number predicted is the mean (DenseNumFeature), which minimises squared error.", "quantifier": "for every target, weights and case list with at least one known value", "why_tests_cant": "An optimality statement over all data.", "anchors": ["densecatfeature.go:DenseCatFeature.Modei,FindPredicted", "wrftarget.go:WRFTarget.FindPredicted", "adaboosttarget.go:AdaBoostTarget.FindPredicted", "regrettarget.go:RegretTarget.FindPredicted", "densenumfeature.go:DenseNumFeature.Mean"]}
{"id": "C39", "title": "The flat scikit-style tree is the same tree", "statement": "BuildScikitTree appends one entry per node, child indices point at the entries of the left and right child, leaves have no children, and following the indices from the root gives back the tree; NodeCount and MaxDepth are right.", "quantifier": "for every binary tree", "why_tests_cant": "All trees.", "anchors": ["sklearn_tree.go:BuildScikitTree"]}
{"id": "C40", "title": "Cross-validation folds are disjoint", "statement": "nfold's test folds are pairwise disjoint, contain only existing cases, have equal size, the training set of a fold is the complement of its test set, and at most folds-1 cases (per class, when stratified) are in no test fold.", "quantifier": "for every number of cases and folds and every random stream", "why_tests_cant": "All sizes and streams.", "anchors": ["utils/nfold/main.go:main"]}
{"id": "C41", "title": "Entropy impurity is a proper impurity", "statement": "EntropyTarget's impurity is the Shannon entropy of the class frequencies: non-negative, zero exactly for a pure set, and its incremental update equals recomputation.", "quantifier": "for every categorical target and case list", "why_tests_cant": "An identity over all count vectors.", "anchors": ["entropytarget.go:EntropyTarget"]}
{"id": "C42", "title": "Re-growing a used tree", "statement": "Growing a tree object that was already grown gives the same tree, votes and partition as growing a fresh one.", "quantifier": "for every previous content of the tree", "why_tests_cant": "Stale children show only for particular pairs of trees.", "anchors": ["tree.go:Tree.Grow,VoteCases,Partition", "growforest/growforest.go:main"]}
{"id": "C43", "title": "Permutation of names and indices stays consistent in matrices", "statement": "In every matrix built by the parsers, AddContrasts/ContrastAll, EncodeToNum or StripStrings, the map from feature name to index points at the feature of that name.", "quantifier": "for every matrix with distinct names and every sequence of these operations", "why_tests_cant": "All matrices.", "anchors": ["featurematrix.go:FeatureMatrix.AddContrasts,ContrastAll,StripStrings,EncodeToNum,ParseAFM"]}
{"id": "C44", "title": "Integer-or-fraction options", "statement": "ParseAsIntOrFractionOfTotal returns the integer for a plain integer string, and the ceiling of fraction times total for a string with a decimal point, which for fractions in [0,1] lies between 0 and the total.", "quantifier": "for every string and total", "why_tests_cant": "All strings.", "anchors": ["utils.go:ParseAsIntOrFractionOfTotal"]}
{"id": "C45", "title": "Missing branches predict something", "statement": "In a tree grown with missing-value splitting, every case, including one whose value is missing at a node, reaches a leaf whose prediction is FindPredicted of some in-bag cases, never an empty string.", "quantifier": "for every grown tree and every case of the matrix", "why_tests_cant": "Needs a case missing at a node where no training case was missing.", "anchors": ["tree.go:Tree.Grow", "node.go:Node.CodedRecurse,Recurse"]}
{"id": "C46", "title": "A split that tells nothing about the target is worth nothing", "statement": "If both sides of a two-way split have the same target distribution as the parent node, the impurity decrease reported for the split is zero, so such a split is never preferred over a leaf.", "quantifier": "For every categorical (Gini) or numerical (squared error) target, every case list and every division of it into two non-empty sides each of which is a proportional copy of the parent's distribution.", "why_tests_cant": "Tests check that a good split wins; they do not examine every proportional division, and a wrong normalisation of the parent or child impurity keeps the ranking of splits mostly intact.", "anchors": ["densecatfeature.go:945-1078", "densenumfeature.go:394-495", "tree.go:96-176"]}
{"id": "C47", "title": "Splits of a feature with infinite values are usable", "statement": "Whenever the numerical split search reports a decrease, the threshold it returns sends at least one case to each side, also when some values of the feature are infinite (the parser accepts \"inf\").", "quantifier": "for every numerical feature, finite or infinite values, every target and case list", "why_tests_cant": "Test data has no infinities; on them the midpoint of a gap is infinite, both sides collapse into one and growing the tree need not stop.", "anchors": ["densenumfeature.go:285-371", "densenumfeature.go:22-32", "tree.go:96-176"]}
{"id": "C48", "title": "A random search reports a feature constant only if it is", "statement": "When the categorical search reports a feature constant on the cases of a node (so that the feature is not tried again below it), no division of its categories leaves leafSize cases on both sides.", "quantifier": "for every categorical feature, with or without RandomSearch, every random stream and case list", "why_tests_cant": "The flag is only wrong for features with more than ten categories when every sampled division happens to be inadmissible, which tests with a fixed seed do not meet.", "anchors": ["densecatfeature.go:608-748", "featurematrix.go:148-256"]}
{"id": "C49", "title": "Any mTry works", "statement": "BestSplitter returns for every number of tries mTry, also when mTry exceeds the number of candidate features (growforest passes -mTry unchanged, and the number of candidates shrinks with -blacklist).", "quantifier": "for every mTry, every list of candidates, every data set and random stream", "why_tests_cant": "Tests use mTry at most the number of candidates; the index runs past the candidates only when all of them were tried without ending the loop.", "anchors": ["featurematrix.go:148-256", "growforest/growforest.go:310-315"]}
{"id": "C50", "title": "The secondary balanced sampler works for all data", "statement": "NewSecondaryBalancedSampler followed by Sample returns for every target and every second feature in which each class has a case, drawing a case from a class of the second feature with probability proportional to its size and then evenly over target classes.", "quantifier": "for every pair of categorical features, every number of samples and every random stream", "why_tests_cant": "A panic needs a combination of a class of the one and a class of the other feature without cases, and a draw that hits it.", "anchors": ["sampeling.go:SecondaryBalancedSampler"]}
{"id": "C51", "title": "A vote of weight zero changes nothing", "statement": "A vote with weight zero leaves the reported prediction of a case as it is (a boosted tree can have weight zero, and -1 is the only weight that is treated as absent).", "quantifier": "for every ballot box, every sequence of votes and every case", "why_tests_cant": "Weights in tests are positive; the effect needs a zero weight to come first.", "anchors": ["utils.go:RunningMean.WeightedAdd", "numballotbox.go:Vote", "catballotbox.go:Vote", "sumballotbox.go:Vote"]}
{"id": "C52", "title": "Cases without votes do not enter the regression error", "statement": "TallySquaredError judges only cases that were voted on: a case never out of bag does not change the out of bag error.", "quantifier": "for every set of votes and every target", "why_tests_cant": "With many trees every case gets a vote, so tests do not see cases without one.", "anchors": ["numballotbox.go:TallySquaredError", "growforest/growforest.go:651-700"]}
{"id": "C53", "title": "Workers end when boosting stops", "statement": "When boosting returns an infinite weight the workers leave their loops and growforest goes on to write its results.", "quantifier": "for every number of workers and every schedule", "why_tests_cant": "It depends on the schedule and on a boosting target that fits the data perfectly.", "anchors": ["growforest/growforest.go:main"]}
{"id": "C54", "title": "Missing branches survive writing and reading", "statement": "Writing a tree with missing branches (splitmissing) and reading it back gives the same missing branches, so cases with missing values get the same prediction.", "quantifier": "for every tree with missing branches and every case", "why_tests_cant": "It needs a tree grown with splitmissing whose missing branch differs from the right one, and a case with a missing value on the way.", "anchors": ["forestwriter.go:ForestWriter.WriteNodeAndChildren", "forestreader.go:ForestReader.ReadTree", "tree.go:Tree.AddNode"]}
{"id": "C55", "title": "ReadForest reports malformed files", "statement": "When a file holds a node outside of any tree, or its last line is cut off, ReadForest returns an error instead of a part of the forest.", "quantifier": "for every text", "why_tests_cant": "All malformed files; tests read well formed ones.", "anchors": ["forestreader.go:ForestReader.ReadForest,ReadTree"]}
{"id": "C56", "title": "The same strings are missing in every column", "statement": "The missing-value tokens (empty string, ?, nan, na, null in any capitals) are read as missing in numerical columns as in categorical ones.", "quantifier": "for every token and column", "why_tests_cant": "Sample files use NA.", "anchors": ["densecatfeature.go:DenseCatFeature.Append", "densenumfeature.go:DenseNumFeature.Append"]}
{"id": "C57", "title": "StripStrings renames categories to their numbers", "statement": "After StripStrings the categories of a feature are called 0, 1, 2, ... in order, cases keep their category, and looking a category's new name up (CatToNum) gives its number, as it does in every other feature.", "quantifier": "for every matrix, target name and category", "why_tests_cant": "A wrong map shows only when a value is looked up by name after stripping; a test that compares written files sees nothing.", "anchors": ["featurematrix.go:FeatureMatrix.StripStrings"]}
{"id": "C58", "title": "OneHot keeps every feature", "statement": "FeatureMatrix.OneHot replaces each categorical feature by indicator features from which the feature's value can be told at every case with a known value.", "quantifier": "for every matrix and feature", "why_tests_cant": "Tests use features with many categories; the features with two categories or fewer that vanish are noticed only by their absence.", "anchors": ["featurematrix.go:FeatureMatrix.OneHot", "densecatfeature.go:DenseCatFeature.OneHot"]}
{"id": "C59", "title": "Writing a matrix as ARFF and parsing it gives the same matrix", "statement": "ParseARFF of what WriteArffCases writes has the same features in the same order, with the same names and kinds, and at every written case the same value or missing mark.", "quantifier": "for every matrix, list of cases and relation name", "why_tests_cant": "Values that meet special characters of the format (comments, commas, braces, question marks) are rarely in test data.", "anchors": ["arff.go:WriteArffCases,ParseARFF"]}
{"id": "C60", "title": "Every line of a libsvm file is read", "statement": "ParseLibSVM makes one case of every line of its input, the last one included whether or not it ends in a line end.", "quantifier": "for every text", "why_tests_cant": "Test files end in a line end.", "anchors": ["libsvm.go:ParseLibSVM"]}
{"id": "C61", "title": "Writing a matrix leaves it unchanged", "statement": "Writing a matrix in any of the formats changes none of its values, names, categories and missing marks.", "quantifier": "for every matrix, list of cases and target", "why_tests_cant": "Tests write a matrix and look at the output, not at the matrix afterwards.", "anchors": ["libsvm.go:WriteLibSvmCases,WriteLibSvm", "featurematrix.go:FeatureMatrix.WriteCases", "arff.go:WriteArffCases"]}
{"id": "C62", "title": "Cases with an unknown target take no part in gradient boosting", "statement": "A case whose target value is missing is still missing after NewGradBoostTarget, and the prior and the residuals of the other cases do not depend on what is stored for it.", "quantifier": "for every numerical target and learning rate", "why_tests_cant": "Test data has no missing targets.", "anchors": ["gradboosttarget.go:NewGradBoostTarget", "growforest/growforest.go:628-633"]}
{"id": "C63", "title": "AdaBoost survives a perfect tree", "statement": "After Boost with a tree that predicts every case rightly, the case weights are finite, positive and sum to one.", "quantifier": "for every target and partition into pure leaves", "why_tests_cant": "A tree without any error on the whole training set is rare on test data with small trees.", "anchors": ["adaboosttarget.go:AdaBoostTarget.Boost"]}
{"id": "C64", "title": "Features are judged by the decrease the options ask for", "statement": "BestSplitter judges a feature by the impurity decrease its search found; with evaloob by the decrease the split gives on the out-of-bag cases; with vet, the decrease found against the target with shuffled values on the same cases is subtracted.", "quantifier": "for every matrix, target, list of cases, list of out-of-bag cases and random stream", "why_tests_cant": "The result is a different choice of feature, which looks as random as the right one.", "anchors": ["featurematrix.go:FeatureMatrix.BestSplitter"]}
{"id": "C65", "title": "Constant numerical features are recognised", "statement": "BestNumSplit reports a feature constant exactly when there are at least twice leafSize cases and any two of their values differ by at most the cutoff.", "quantifier": "for every numerical feature with finite values and list of cases", "why_tests_cant": "Values that differ by about the cutoff are not in test data, and the flag only changes later searches.", "anchors": ["densenumfeature.go:DenseNumFeature.BestNumSplit"]}
{"id": "C66", "title": "Splitting never loses information", "statement": "The entropy of a set of cases is at most the logarithm of the number of categories, and the size-weighted mean entropy of the left, right and missing blocks of a division, as EntropyTarget.SplitImpurity computes it, is at most the entropy of the whole.", "quantifier": "for every categorical target, case list and division into three blocks", "why_tests_cant": "An inequality over all divisions.", "anchors": ["entropytarget.go:EntropyTarget.SplitImpurity,ImpFromCounts"]}
{"id": "C67", "title": "Incremental updates agree for every target", "statement": "For each target (cost-sensitive entropy, weighted random forest, regret, Neyman-Pearson, AdaBoost, AdaCost, Hellinger distance, gradient boosting) moving cases from right to left with UpdateSImpFromAllocs gives the value and the counters that SplitImpurity computes from scratch.", "quantifier": "for every target, weights and costs, division and chain of moved blocks", "why_tests_cant": "Each target has its own copy of the update code; tests exercise few of them.", "anchors": ["wrftarget.go", "regrettarget.go", "NPtarget.go", "dentropytarget.go", "hdistancetarget.go", "adaboosttarget.go", "adacosttarget.go", "gradboosttarget.go"]}
{"id": "C68", "title": "Regret is the average cost of the best prediction", "statement": "RegretTarget's impurity of a set of cases is the average misclassification cost of the cheapest prediction for them, and no division increases it on average.", "quantifier": "for every target, non-negative costs and case list", "why_tests_cant": "The scale of an impurity does not show in which split is chosen.", "anchors": ["regrettarget.go:RegretTarget.ImpFromCounts"]}
{"id": "C69", "title": "Friedman's score is the decrease of squared error", "statement": "GradBoostTarget's score of a division is the decrease of the sum of squared deviations it brings, so it is never negative, and the search returns the threshold with the largest decrease.", "quantifier": "for every numerical target with finite values and every division", "why_tests_cant": "An algebraic identity over all data.", "anchors": ["gradboosttarget.go:FriedmanScore,GradBoostTarget.SplitImpurity"]}
{"id": "C70", "title": "The Hellinger target scores by Hellinger distance", "statement": "HDistanceTarget's score of a division is the squared Hellinger distance of the two classes' distributions over the sides: between 0 and 2, zero exactly if both classes are divided alike, two exactly if the sides separate them; a leaf predicts the fraction of the positive class.", "quantifier": "for every two-class target and division", "why_tests_cant": "A wrong distance still prefers pure sides on most data.", "anchors": ["hdistancetarget.go:HDistanceTarget.HDist,FindPredicted"]}
{"id": "C71", "title": "Weighted Gini is a proper impurity", "statement": "WRFTarget's impurity is one minus the sum of squared fractions of the weight: in [0,1), zero exactly for a pure set, and no division increases it on average.", "quantifier": "for every target, positive weights, case list and division", "why_tests_cant": "An inequality over all weights.", "anchors": ["wrftarget.go:WRFTarget.ImpFromCounts,SplitImpurity"]}
{"id": "C72", "title": "Neyman-Pearson impurity is the documented one", "statement": "If the constrained class has the largest corrected count, NPTarget's impurity is kappa times the excess of the fraction of other cases over alpha, and otherwise the fraction of constrained cases; the leaf's prediction is the class with the largest corrected count.", "quantifier": "for every target, alpha > 0, kappa and non-empty case list", "why_tests_cant": "Both branches must agree with the separately coded prediction on all counts.", "anchors": ["NPtarget.go:NPTarget.ImpFromCounts,FindPredicted"]}
{"id": "C73", "title": "Transduction predicts labels where it can", "statement": "TransTarget.FindPredicted predicts the unlabelled class exactly if no case at the leaf is labelled, and otherwise a most common label.", "quantifier": "for every target, Beta and case list", "why_tests_cant": "The doc comment promises it; Beta is rarely set in tests.", "anchors": ["transduction.go:TransTarget.FindPredicted"]}
{"id": "C74", "title": "Scores are scaled by the fraction of known cases", "statement": "For targets that maximise a score (Hellinger distance, gradient boosting) the value BestSplit reports for a feature with missing values is the score of the division of the known cases times the fraction of known cases.", "quantifier": "for every feature, target and case list", "why_tests_cant": "The correction is written for impurities; the sentinel -1 has to cancel in it.", "anchors": ["densenumfeature.go:DenseNumFeature.BestSplit", "densecatfeature.go:DenseCatFeature.BestSplit", "hdistancetarget.go:HDistanceTarget.Impurity", "gradboosttarget.go:GradBoostTarget.Impurity"]}
{"id": "C75", "title": "No division increases AdaBoost impurity", "statement": "The impurity AdaBoostTarget.SplitImpurity computes for a division is at most the impurity of the undivided cases.", "quantifier": "for every target, case weights and division", "why_tests_cant": "Only unequal weights, after a round of boosting, can show it.", "anchors": ["adaboosttarget.go:AdaBoostTarget.SplitImpurity,ImpFromCounts"]}
{"id": "C76", "title": "Encoded features are independent of the original", "statement": "The numerical features EncodeToNum makes of a categorical feature are new features: a later change to one of them does not show in the original.", "quantifier": "for every categorical feature and every later sequence of updates", "why_tests_cant": "Aliasing shows only after particular update sequences.", "anchors": ["densecatfeature.go:DenseCatFeature.EncodeToNum"]}
{"id": "C77", "title": "The absolute error target has least absolute error", "statement": "A leaf of an L1 target predicts the value with the least mean absolute error over its known cases, and the impurity is that error; it is zero exactly if the known values are all the same.", "quantifier": "for every numerical target and every set of cases", "why_tests_cant": "Mean and median agree on symmetric samples.", "anchors": ["l1target.go:L1Target.Impurity,Error", "densenumfeature.go:DenseNumFeature.FindPredicted"]}
{"id": "C78", "title": "No division increases absolute or ordinal error", "statement": "The impurity the L1 and ordinal targets compute for a division is at most the impurity of the undivided cases.", "quantifier": "for every target and every division into non-empty sides", "why_tests_cant": "It takes values whose mean or mode moves away from the bulk.", "anchors": ["l1target.go:L1Target.SplitImpurity", "ordinaltarget.go:OrdinalTarget.SplitImpurity"]}
{"id": "C79", "title": "Ordinal leaves predict a most frequent value", "statement": "For a target of whole numbers a leaf predicts a value that occurs most often among its known cases, and the impurity is the mean squared distance of the known values from it.", "quantifier": "for every target of whole numbers, every order of cases and any missing values", "why_tests_cant": "Ties and missing values give many orders.", "anchors": ["ordinaltarget.go:NewOrdinalTarget,OrdinalTarget.Impurity,Mode,FindPredicted"]}
{"id": "C80", "title": "Adaptive boosting of regression keeps a distribution", "statement": "Each round of NumAdaBoostTarget leaves case weights that are positive and add up to one, and cases far from their leaf's mean gain weight over cases near to it.", "quantifier": "for every numerical target, any number of rounds and any partitions", "why_tests_cant": "A run of rounds must be exact at each one; a single pure tree destroys the weights.", "anchors": ["numadaboostingtarget.go:NumAdaBoostTarget.Boost,Impurity,NewNumAdaBoostTarget"]}
{"id": "C81", "title": "Class boosting agrees with the forest it grows", "statement": "After any number of rounds the log odds GradBoostClassTarget holds for a case are what applyforest -sum predicts for it with the forest's intercept, and its residual is its label less the logistic function of them.", "quantifier": "for every two class target, learning rate and sequence of trees", "why_tests_cant": "Rounding aside, only a proof covers every sequence of trees.", "anchors": ["gradboostclasstarget.go:GradBoostClassTarget.Boost,Update,Intercept", "applyforest/applyforest.go"]}
{"id": "C82", "title": "Class boosting starts at the prior and steps by Newton's method", "statement": "Before the first tree each case has the probability of the positive class among all cases, and the residuals add up to zero. A leaf predicts one step of Newton's method for the likelihood of the labels of its cases.", "quantifier": "for every two class target and every leaf", "why_tests_cant": "The formula of a leaf is an expression in residuals; that it is a quotient of derivatives of the likelihood is not visible in any output.", "anchors": ["gradboostclasstarget.go:NewGradBoostClassTarget,Expit,GradBoostClassTarget.Predicted"]}
{"id": "C83", "title": "Class boosting does not make the training labels less likely", "statement": "A round of class boosting with a learning rate of at most one does not lower the likelihood of the labels of the training cases.", "quantifier": "for every two class target, learning rate and tree", "why_tests_cant": "It takes a rare class in a mixed leaf.", "anchors": ["gradboostclasstarget.go:GradBoostClassTarget.Predicted,Update"]}
{"id": "C84", "title": "Cases of unknown class do not take part in class boosting", "statement": "Cases whose class is missing do not count for the prior, stay missing in the target, and the feature the target was made of is not changed.", "quantifier": "for every class feature with missing values", "why_tests_cant": "Aliased missing marks show only in later use of the feature.", "anchors": ["gradboostclasstarget.go:NewGradBoostClassTarget", "densecatfeature.go:DenseCatFeature.EncodeToNum"]}
{"id": "C85", "title": "Span is the spread of the known values", "statement": "The span of a numerical feature over some cases is the difference of the largest and the least known value, that of a categorical feature the number of different known categories.", "quantifier": "for every feature and every set of cases", "why_tests_cant": "No output shows a span.", "anchors": ["densenumfeature.go:DenseNumFeature.Span", "densecatfeature.go:DenseCatFeature.Span"]}
{"id": "C86", "title": "Density is the number of cases over the volume", "statement": "A density target predicts for t of n cases the density t/n over the product of the spans of the features, and its impurity is (t/n)^2 over that product.", "quantifier": "for every set of features and every set of cases", "why_tests_cant": "Infinite densities are printed as any other number.", "anchors": ["densitytarget.go:DensityTarget.Impurity,FindPredicted,SplitImpurity"]}
{"id": "C87", "title": "Transduction adds the density of all other features", "statement": "The impurity of a transduction target is the supervised one plus alpha times the product of the spans of all other features over the square of the number of cases; with alpha zero it is the supervised one.", "quantifier": "for every target, alpha, features and every set of cases", "why_tests_cant": "A term that ignores some features still looks plausible.", "anchors": ["transduction.go:TransTarget.Impurity,Density,SplitImpurity"]}
{"id": "C88", "title": "A leaf of a jungle predicts from the cases that reach it", "statement": "Grown as a jungle, every leaf predicts FindPredicted of exactly the in-bag cases that reach it, and leaf size and depth limits hold as for trees.", "quantifier": "for every matrix, target, search options and random choices", "why_tests_cant": "It takes a target whose impurity falls by joining, and two neighbouring nodes of different parents.", "anchors": ["tree.go:Tree.GrowJungle"]}
{"id": "C89", "title": "Growing a jungle joins nodes", "statement": "Of the neighbouring nodes with different parents at a level those are joined for which it lowers the impurity most, so that a jungle may have nodes with several parents.", "quantifier": "for every target and every level", "why_tests_cant": "That no data at all lead to a join cannot be seen from samples.", "anchors": ["tree.go:Tree.GrowJungle"]}
{"id": "C90", "title": "A jungle has levels and no cycles", "statement": "Children in a jungle are one level below their parents even where nodes have been joined, no level lies below maxDepth, and there are no cycles.", "quantifier": "for every search, every way of judging joins and every matrix", "why_tests_cant": "Cycles need particular sequences of joins.", "anchors": ["tree.go:Tree.GrowJungle"]}
{"id": "C91", "title": "The importance file reports the decrease of impurity brought by each feature's splits", "statement": "For each feature the importance file gives the number of splits on it in all trees, the mean decrease of impurity they bring on the bagged cases that reach them, and the sum of these decreases divided by the number of trees; keeping these books changes no tree and does not depend on the order in which workers write.", "quantifier": "for every matrix, target, bag, search options and any number of trees", "why_tests_cant": "The running means are only right if every split is noted once with its own decrease; a small error would look like noise.", "anchors": ["tree.go:Tree.Grow", "growforest/growforest.go:main", "utils.go:RunningMean.Add"]}
{"id": "C92", "title": "Tree used count and mean minimal depth", "statement": "For each feature the importance file gives the number of trees that use it and the mean over these trees of the smallest depth at which it is used.", "quantifier": "for every run", "why_tests_cant": "Root splits are counted wrongly in silence: the numbers stay plausible.", "anchors": ["tree.go:Tree.Grow", "growforest/growforest.go:main"]}
{"id": "C93", "title": "Splits use only the features left by the blacklist", "statement": "A forest grown by growforest splits only on features other than the target that are not named in the blacklist file, do not match -blockRE and match -includeRE, if these are given; and the number of features from which mTry is worked out is the number of these.", "quantifier": "for every matrix, file, pair of expressions, target and all search options", "why_tests_cant": "Leakage of a blacklisted feature depends on which features win splits; a wrong count shows up only as a slightly different mTry.", "anchors": ["growforest/growforest.go:main", "featurematrix.go:FeatureMatrix.BestSplitter", "tree.go:Tree.Grow"]}
{"id": "C94", "title": "The report on test data", "statement": "For each label of the test data growforest reports how many cases have it and for how many it is predicted, the share of predictions that are right and the share of cases missed, together with the share of all cases classified correctly.", "quantifier": "for every test target and all predictions", "why_tests_cant": "Rates that are mislabelled or miscount missing labels look plausible.", "anchors": ["growforest/growforest.go:main"]}
{"id": "C95", "title": "The t-test on importances is Welch's", "statement": "Ttest returns the difference of the means over the root of the summed squared standard errors, Welch's degrees of freedom, and the probability of a value at least as large under Student's distribution.", "quantifier": "for all pairs of samples", "why_tests_cant": "It takes exact reference values; two of the shipped tests compare a handful of numbers to three digits.", "anchors": ["stats/stats.go:Ttest", "stats/stats.go:MeanAndVar"]}
{"id": "C96", "title": "ACE keeps the significant features", "statement": "With -ace and -cutoff the last forest uses exactly the features whose importance over the permutations is positive and significantly above that of their shuffled copies, and mTry is worked out from their number.", "quantifier": "for all importances, cutoffs and numbers of permutations", "why_tests_cant": "NaN p-values drop features in silence.", "anchors": ["growforest/growforest.go:main", "stats/stats.go:Ttest"]}
{"id": "C97", "title": "What applyforest predicts", "statement": "applyforest writes for each case a class with the largest total weight of trees, or with -sum and -mean (or a numeric target) the weighted sum or mean of the trees' numbers plus the intercept, transformed if -expit is given, and reports the error of these predictions.", "quantifier": "for every forest, data it fits, all options and every order of map iteration", "why_tests_cant": "Tests apply one forest with the options of the moment; options that are ignored and errors worked out from something other than what is written still give numbers.", "anchors": ["applyforest/applyforest.go:main", "catballotbox.go:CatBallotBox.Tally", "numballotbox.go:NumBallotBox.TallyNum", "sumballotbox.go:SumBallotBox.TallyNum"]}
{"id": "C98", "title": "Vote totals of applyforest", "statement": "The vote file has one column for each class that a tree predicts for some case and one row for each case, with the total weight of the trees that predict the class for the case.", "quantifier": "for every forest and data it fits", "why_tests_cant": "Totals depend on all trees together; absent entries of a map read as zero.", "anchors": ["applyforest/applyforest.go:main", "catballotbox.go:CatBallotBox.Vote"]}
{"id": "C99", "title": "Co-occurrence counts of leafcount", "statement": "leafcount writes one line for each pair of cases that share a leaf in some tree, with the number of trees in which they do; the counts are symmetric and largest on the diagonal.", "quantifier": "for every forest, data it fits, and every interleaving of the threads", "why_tests_cant": "The pairs are quadratic in the cases and written in random order, so files are not compared.", "anchors": ["leafcount/leafcount.go:main", "tree.go:Tree.GetLeaves", "utils.go:SparseCounter.Add", "utils.go:SparseCounter.WriteTsv"]}
{"id": "C100", "title": "Case by feature counts of leafcount", "statement": "leafcount writes one line for each case and feature such that the feature splits the case somewhere on its way down, with the number of times this happens in all trees.", "quantifier": "for every forest whose features are in the data, and every interleaving of the threads", "why_tests_cant": "It takes the path of every case through every tree to say what the numbers should be.", "anchors": ["tree.go:Tree.GetLeaves", "leafcount/leafcount.go:main", "utils.go:SparseCounter.Add"]}
{"id": "C101", "title": "The splits file of leafcount", "statement": "The splits file lists, for each feature that is used, a description of every split by it, none lost.", "quantifier": "for every forest and every interleaving of the threads", "why_tests_cant": "Lost updates need an unlucky interleaving.", "anchors": ["leafcount/leafcount.go:main", "node.go:Node.Climb"]}
{"id": "C102", "title": "Features missing from the data are noticed", "statement": "A forest that splits by a feature that the data do not have is not applied to them as if nothing were wrong.", "quantifier": "for every forest and data", "why_tests_cant": "Predictions come out either way; nobody tests data with the wrong columns.", "anchors": ["splitter.go:Splitter.Split", "tree.go:Tree.Vote"]}
{"id": "C103", "title": "Growing without bagging", "statement": "With -nobag each tree is grown from the cases whose target is known, each once, or with -nSamples from so many of them drawn without repetition.", "quantifier": "for every target, number of samples, state of the random generator, and every rearrangement of the worker's list by the trees before", "why_tests_cant": "A tree grown from too few cases looks like any other tree.", "anchors": ["growforest/growforest.go:main", "sampling.go:SampleFirstN"]}
{"id": "C104", "title": "Out-of-bag predictions are of unseen cases", "statement": "The out-of-bag prediction for a case comes only from trees that were grown without it, and combines them as the model combines its trees.", "quantifier": "for every forest with the cases each tree was grown from, every data set it fits, and every order of map iteration", "why_tests_cant": "The error looks plausible whichever trees voted.", "anchors": ["growforest/growforest.go:main", "tree.go:Tree.VoteCases", "numballotbox.go:NumBallotBox.TallyNum", "catballotbox.go:CatBallotBox.Tally"]}
{"id": "C105", "title": "toafm keeps the data", "statement": "toafm writes exactly the features that are not on the blacklist, in order, under names marked with their kinds, and the file is read back with the same kinds, labels, values and missing values, each feature under its own name.", "quantifier": "for every matrix of writable values whatever its features are called, and every blacklist", "why_tests_cant": "Names without marks are what the tool is for, but a test looks at the file and does not read it back.", "anchors": ["utils/toafm/main.go:main", "featurematrix.go:FeatureMatrix.WriteCases", "featurematrix.go:ParseAFM"]}
{"id": "C106", "title": "Anonymised files reveal no strings", "statement": "With -anontarget the named feature comes first, and the file depends on the data only through numbers, numbers of categories, and what is missing: it is the same for any names, categories and labels.", "quantifier": "for any two matrices that differ in strings only", "why_tests_cant": "It is a statement about pairs of runs.", "anchors": ["utils/toafm/main.go:main", "featurematrix.go:FeatureMatrix.StripStrings", "featurematrix.go:FeatureMatrix.WriteCases"]}
{"id": "C107", "title": "Boosting options boost", "statement": "With -gbt, -adaboost or -adacost the target is reweighed after every tree by the algorithm that was asked for; without them nothing is.", "quantifier": "for every combination of the options that choose a target, for numerical and categorical targets", "why_tests_cant": "Thirteen options make thousands of combinations, and no test runs growforest.", "anchors": ["growforest/growforest.go:main", "forrest.go:GrowRandomForest", "adaboosttarget.go:AdaBoostTarget.Boost"]}
{"id": "C108", "title": "Every option asking for a target is honoured", "statement": "Each option that asks for a kind of target has an effect on the target that is used, or is rejected.", "quantifier": "for every combination of the options", "why_tests_cant": "Ignored options show no symptoms.", "anchors": ["growforest/growforest.go:main"]}
{"id": "C109", "title": "Cost-sensitive boosting", "statement": "A round of AdaCost keeps the weights positive with sum one, raises wrongly predicted cases relative to their costs if the tree is accepted, accepts it if the weighted cost of the errors is below one half of all, and depends on the ratios of the costs only.", "quantifier": "for every target, all weights and costs, and every tree", "why_tests_cant": "The package has no test that sets more than trivial costs.", "anchors": ["adacosttarget.go:AdaCostTarget.Boost", "adacosttarget.go:AdaCostTarget.SetCosts"]}
{"id": "C110", "title": "Predictions with disutilities are shares", "statement": "A leaf of a DEntropyTarget predicts the share of the class True in the cost of its cases, a number from 0 to 1, and predicting changes nothing.", "quantifier": "for every target, all costs and all leaves", "why_tests_cant": "The tests only check that a forest grows.", "anchors": ["dentropytarget.go:DEntropyTarget.FindPredicted", "catmap.go:CatMap.CatToNum"]}
{"id": "C111", "title": "A forest that is grown, saved and applied predicts as the one in memory", "statement": "A forest grown from a matrix, written to a file and read from it by applyforest gives every case of the matrix the votes that the forest in memory gives, and cases of other matrices those its splits give by the names of features and categories.", "quantifier": "for every matrix whose strings contain no marks of the format, all targets, options without -splitmissing, random numbers and trees", "why_tests_cant": "A test would have to train, save, load and compare for all data; the existing ones check that files can be parsed.", "anchors": ["growforest/growforest.go:main", "forestwriter.go:ForestWriter.WriteForest", "forestreader.go:ForestReader.ReadForest", "applyforest/applyforest.go:main", "tree.go:Tree.Grow"]}
{"id": "C112", "title": "GrowRandomForest grows the requested forest from cases with known targets", "statement": "The library's GrowRandomForest always returns nTrees trees for its target, each the tree of nSamples cases whose target is known.", "quantifier": "for every sound matrix, target, options and random numbers", "why_tests_cant": "Which cases are drawn is random, and unknown targets do not show in the error.", "anchors": ["forrest.go:GrowRandomForest", "sampeling.go:SampleWithReplacment"]}
{"id": "C113", "title": "The trees of a file are numbered", "statement": "The trees that growforest writes are numbered from 0 in the order of the file.", "quantifier": "for every forest and all options", "why_tests_cant": "Readers ignore the numbers.", "anchors": ["growforest/growforest.go:main", "forestwriter.go:ForestWriter.WriteTree"]}
{"id": "C114", "title": "Parameters that are left out are inferred so that growing works", "statement": "Without values mTry is the root of the number of features rounded up, nSamples the number of known cases, and the leaf size at least one; given numbers and fractions are used.", "quantifier": "for every number of features and cases and every string given", "why_tests_cant": "Defaults are tested for one data set at most.", "anchors": ["growforest/growforest.go:main", "utils.go:ParseAsIntOrFractionOfTotal"]}
{"id": "C115", "title": "Cases of unknown target stay unknown", "statement": "Preparing the data does not give cases of unknown target a target, so they take no part in growing.", "quantifier": "for every matrix, target and options", "why_tests_cant": "An imputed target is indistinguishable from a measured one afterwards.", "anchors": ["growforest/growforest.go:main", "featurematrix.go:FeatureMatrix.ImputeMissing"]}
{"id": "C116", "title": "Permuting and shuffling change nothing else", "statement": "-permute reorders the values of the target only and -shuffleRE those of the other matching features only, each value keeping its missing mark; every order of the target is possible.", "quantifier": "for every matrix, target, set of names and random numbers", "why_tests_cant": "The outcome is random.", "anchors": ["growforest/growforest.go:main", "densecatfeature.go:DenseCatFeature.Shuffle", "densenumfeature.go:DenseNumFeature.Shuffle"]}
{"id": "C117", "title": "A table is read the same in rows and in columns, quoted or not", "statement": "ParseAFM gives one and the same matrix, with the table's labels, names and values, for a table written with features in rows and with features in columns, whichever fields are put in quotes and whichever line ends are used.", "quantifier": "for every table with cases and typed feature names, every choice of fields to quote, and both line ends", "why_tests_cant": "The choices of what to quote multiply, and the two orientations take different code.", "anchors": ["featurematrix.go:ParseAFM", "featurematrix.go:FeatureMatrix.LoadCases", "featurematrix.go:ParseFeature"]}
{"id": "C118", "title": "The scratch space is large enough", "statement": "In every run of growforest, however cases are sampled, the scratch slices made once per worker for nSamples cases are long enough for every search of every tree: growing never indexes past their end and gives the trees that unlimited scratch space would give.", "quantifier": "for every sound matrix, target, sampling option, search option, number of samples and trees, and all random numbers", "why_tests_cant": "The lengths written depend on the sampled and out-of-bag cases and on the kind and category counts of the features; the panic needs few samples and two options together.", "anchors": ["growforest/growforest.go:main", "splitallocations.go:NewBestSplitAllocs", "sortablefeature.go:SortableFeature.Load", "densecatfeature.go:DenseCatFeature.BestCatSplit", "featurematrix.go:FeatureMatrix.BestSplitter"]}
{"id": "C119", "title": "A run of growforest from sampling to the file", "statement": "A run of growforest grows exactly the requested number of trees, at least one, without panicking. Each tree is the one newly grown from its own bag of at most nSamples cases with known target and obeys the leaf size and depth limits; the forest file holds these trees and predicts as they do; the out-of-bag votes are theirs.", "quantifier": "for every sound matrix, target, sampling and search option, number of samples and trees, and all random numbers", "why_tests_cant": "The tree object of a worker is grown again and again; what remains of earlier trees depends on the whole history of the run.", "anchors": ["growforest/growforest.go:main", "tree.go:Tree.Grow", "forestwriter.go:ForestWriter.WriteNodeAndChildren", "tree.go:Tree.VoteCases"]}
{"id": "C120", "title": "Samples and shuffles are fair", "statement": "Drawing a sample, shuffling a feature and shuffling the target among the cases of a node favour nothing: if every random number is equally likely, every possible sample, and every possible arrangement of the values, is equally likely.", "quantifier": "for every deck of different cases, every feature and every list of cases to shuffle; counted over all sequences of random numbers", "why_tests_cant": "A bias between arrangements is a statement about all sequences of random numbers; tests see a few, and a repeated case shifts probabilities without any visible failure.", "anchors": ["sampeling.go:SampleFirstN", "densecatfeature.go:DenseCatFeature.ShuffleCases", "densecatfeature.go:DenseCatFeature.Shuffle", "densenumfeature.go:DenseNumFeature.ShuffleCases", "densenumfeature.go:DenseNumFeature.Shuffle", "featurematrix.go:FeatureMatrix.BestSplitter"]}
{"id": "C121", "title": "Every node of a grown tree is the best it can be", "statement": "When every candidate is tried, without vetting, out-of-bag evaluation or random thresholds, every split of a grown tree is the best division that any threshold or group of categories of any candidate makes of the cases reaching its node, among those leaving leafSize cases on both sides; and no leaf above the depth limit could be divided to advantage.", "quantifier": "for every matrix, bag, order of candidates, depth limit and all random numbers; for Gini impurity and the numerical impurity", "why_tests_cant": "It quantifies over all divisions at all nodes; candidates skipped as constant at an ancestor must be proved useless for every descendant.", "anchors": ["tree.go:Tree.Grow", "featurematrix.go:FeatureMatrix.BestSplitter", "densenumfeature.go:DenseNumFeature.BestNumSplit", "densecatfeature.go:DenseCatFeature.BestCatSplit", "densecatfeature.go:DenseCatFeature.BestBinSplit", "densenumfeature.go:DenseNumFeature.BestSplit", "densecatfeature.go:DenseCatFeature.BestSplit"]}
{"id": "C122", "title": "Regression splits have the least squared error", "statement": "For a numerical target the split search returns, of all divisions leaving leafSize cases on both sides, the one for which predicting each side's mean leaves the least squared error, as doc.go says.", "quantifier": "for every numerical target, every feature searched completely, and every list of cases", "why_tests_cant": "A wrong weighting still gives plausible splits, often the right ones.", "anchors": ["densenumfeature.go:DenseNumFeature.SplitImpurity", "densenumfeature.go:DenseNumFeature.UpdateSImpFromAllocs", "densenumfeature.go:DenseNumFeature.Impurity", "densenumfeature.go:DenseNumFeature.BestNumSplit"]}
{"id": "C123", "title": "Vetting measures a feature against chance", "statement": "With -vet, what is taken off the decrease found for a feature is the decrease found for the same cases with the target's values rearranged among them, in the same measure; it is never negative and never more than the impurity of the node, so that vetting never raises a score.", "quantifier": "for every target, every feature and its missing values, every list of cases, and every shuffle", "why_tests_cant": "A score that is too high for some shuffles looks like luck.", "anchors": ["featurematrix.go:FeatureMatrix.BestSplitter", "splitallocations.go:NewBestSplitAllocs", "densecatfeature.go:DenseCatFeature.ShuffleCases", "densenumfeature.go:DenseNumFeature.ShuffleCases"]}
{"id": "C124", "title": "A tree does not depend on the order of its cases or the units of its features", "statement": "With the same random numbers and without -vet and -evaloob, growing from the same bag in another order gives the same tree. Numerical features in other units that keep the order of their values give a tree of the same form in which every case of the bag comes to the same prediction, and if the units are affine every case whatever does, as long as different values are further apart than constant_cutoff in both units.", "quantifier": "for every target, every matrix, bag and rearrangement of it, every pair of units, every stream of random numbers and every option but these two", "why_tests_cant": "Equality of two whole runs, for units and orders no one thought of.", "anchors": ["tree.go:Tree.Grow", "featurematrix.go:FeatureMatrix.BestSplitter", "densenumfeature.go:DenseNumFeature.BestNumSplit", "densecatfeature.go:DenseCatFeature.BestSplit"]}
{"id": "C125", "title": "A threshold found in floating point makes the division it was judged by", "statement": "When values, comparisons and thresholds are rounded to double precision, a numerical split that is reported with a decrease sends to the left exactly the cases that were counted as left when the decrease was computed, so that both sides keep the smallest size of a leaf.", "quantifier": "for every numerical feature with values of double precision, every target, every list of cases, leaf size and parent impurity, and every rounding to nearest", "why_tests_cant": "The failing inputs are neighbouring floating point numbers or very large ones, which generated test data never contains; the exact cases are infinitely many.", "anchors": ["densenumfeature.go:DenseNumFeature.BestNumSplit", "densenumfeature.go:DenseNumFeature.GoesLeft", "densenumfeature.go:DenseNumFeature.Split"]}
{"id": "C126", "title": "The impurity of a numerical target in floating point", "statement": "When every sum, square and quotient is rounded to double precision, the impurity of a node is close to the sum of squared deviations from the mean, is not negative, is zero exactly when all targets are equal, and the impurity the search keeps up to date from cut to cut is the one that would be computed anew.", "quantifier": "for every numerical target with values of double precision, every list of cases and every sequence of cuts", "why_tests_cant": "Rounding errors depend on the exact bits of the data; the values in test files are small whole numbers or standardised, for which the claim holds.", "anchors": ["densenumfeature.go:DenseNumFeature.Impurity", "densenumfeature.go:DenseNumFeature.SplitImpurity", "densenumfeature.go:DenseNumFeature.UpdateSImpFromAllocs", "featurematrix.go:FeatureMatrix.BestSplitter"]}
{"id": "C127", "title": "The mean of a leaf in floating point", "statement": "When every sum and quotient is rounded to double precision, the prediction of a regression leaf is close to the mean of the known targets of its cases and lies between the least and the greatest of them.", "quantifier": "for every numerical target with values of double precision and every list of cases, missing ones included", "why_tests_cant": "Only particular bit patterns round out of the range; a test compares with a tolerance.", "anchors": ["densenumfeature.go:DenseNumFeature.Mean", "densenumfeature.go:DenseNumFeature.FindPredicted"]}
{"id": "C128", "title": "The files of cross-validation hold the divided data", "statement": "nfold writes for every fold one file that is read back as the test cases and one that is read back as the training cases, each with the values of the target and of every feature that is not blacklisted; test sets are disjoint and equally large (of each class, when stratified), the training set of a fold consists of the other test sets, and every option that asks for an encoding or a format is honoured.", "quantifier": "for every matrix that can be written, every blacklist, number of folds, setting of the options and stream of random numbers", "why_tests_cant": "A test would have to read back every file of every option combination; the failing ones write files without an error message.", "anchors": ["utils/nfold/main.go:main", "featurematrix.go:FeatureMatrix.WriteCases", "libsvm.go:WriteLibSvmCases"]}
{"id": "C129", "title": "Training files know nothing of the test cases", "statement": "The training file that nfold writes for a fold depends only on the training cases: changing the values of test cases, other than their targets, changes neither the division nor the training file.", "quantifier": "for every two matrices with the same features and targets, every fold, blacklist and stream of random numbers", "why_tests_cant": "A leak shows only when two runs on different data are compared; the files of one run look right.", "anchors": ["utils/nfold/main.go:main", "featurematrix.go:FeatureMatrix.ImputeMissing", "libsvm.go:WriteLibSvmCases"]}
{"id": "C130", "title": "Fully grown trees classify their training cases", "statement": "With every feature tried at every node, one case allowed in a leaf and no limit on depth, a tree grown for the Gini impurity predicts the class of each of its training cases whenever the features tell the classes apart.", "quantifier": "for every matrix, every target, every bag of cases and every state of the generator", "why_tests_cant": "Trees are tested on a few data sets where most cases come out right; a single case lost in a mixed leaf does not show in an error rate.", "anchors": ["tree.go:Tree.Grow", "densenumfeature.go:DenseNumFeature.BestNumSplit", "cattarget.go:CatFeature.SplitImpurity"]}
{"id": "C131", "title": "Fully grown regression trees fit their training cases", "statement": "With every feature tried at every node, one case allowed in a leaf and no limit on depth, the training cases of a leaf of a regression tree have the same target whenever a feature tells them apart.", "quantifier": "for every matrix, every numerical target, every bag of cases and every state of the generator", "why_tests_cant": "The remaining spread of a leaf is tiny in one unit and all of the data in another; tests use one unit.", "anchors": ["tree.go:Tree.Grow", "densenumfeature.go:DenseNumFeature.BestNumSplit", "densenumfeature.go:DenseNumFeature.SplitImpurity"]}
{"id": "C132", "title": "Gradient boosting does not increase the training error", "statement": "With a learning rate of at most two, no tree that gradient boosting adds increases the squared error that the saved model, applied with -sum, makes on the cases it was grown from.", "quantifier": "for every matrix, every numerical target, every number of trees, every learning rate up to two and every state of the generator", "why_tests_cant": "The error of a boosted model usually falls at first whatever is wrong with the residuals; a run that starts to diverge after some trees looks like overfitting.", "anchors": ["gradboosttarget.go:GradBoostTarget.Boost", "gradboosttarget.go:GradBoostTarget.Update", "growforest/growforest.go:main", "forrest.go:GrowRandomForest", "tree.go:Tree.Partition"]}
{"id": "C133", "title": "Adaptive boosting bounds the training error", "statement": "A forest whose trees are weighted one after the other by AdaBoostTarget.Boost misclassifies at most the share of training cases that the weights allow: one over the product of their hyperbolic cosines (the bound of Freund and Schapire).", "quantifier": "for every matrix, every target of classes, every sequence of trees and every order in which votes are compared", "why_tests_cant": "A wrong sign, factor or normalisation still gives a forest that predicts most training cases; the bound ties the weights to the mistakes for every sequence of trees.", "anchors": ["adaboosttarget.go:AdaBoostTarget.Boost", "adaboosttarget.go:NewAdaBoostTarget", "tree.go:Tree.Partition", "tree.go:Tree.VoteCases", "catballotbox.go:CatBallotBox.Tally"]}
{"id": "C134", "title": "Gini splits in double precision are optimal up to rounding", "statement": "Computed in IEEE double precision, the Gini impurity differs from the exact one by at most 2^-51 per class, is never negative and is zero only for cases of one class; the division chosen by BestSplit is worth at most (k+3)/2^49 less than the best one, where k is the number of classes; and if none is chosen then none is worth more than 1e-7 and that error.", "quantifier": "for every target of up to 2^24 classes, every list of up to 2^26 cases, every leaf size, every feature of numbers of which no two are closer than 1e-7 and every feature of up to five categories (ten with random search)", "why_tests_cant": "Rounding errors depend on all counts at once; a test sees a few sums, and a negative impurity of a pure node or a worse division would show only for particular counts.", "anchors": ["densecatfeature.go:DenseCatFeature.GiniWithoutAlocate,ImpFromCounts", "densecatfeature.go:DenseCatFeature.SplitImpurity", "densecatfeature.go:DenseCatFeature.UpdateSImpFromAllocs", "densenumfeature.go:DenseNumFeature.BestNumSplit", "densecatfeature.go:DenseCatFeature.BestCatSplit", "densecatfeature.go:DenseCatFeature.BestBinSplit"]}
{"id": "C135", "title": "Importances account for the impurity removed", "statement": "The importances reported for the features are the impurity their splits remove from the data: over all features they add up to the impurity of the bag less what is left in the leaves, and what is left bounds the share of training cases that the tree misclassifies.", "quantifier": "for every matrix, target, impurity, option and bag whose cases all end in leaves", "why_tests_cant": "Each noted decrease is right by itself; that they add up needs every split of every tree to be counted with the right weight.", "anchors": ["tree.go:Tree.Grow", "utils.go:RunningMean.Add", "growforest/growforest.go:main", "featurematrix.go:FeatureMatrix.BestSplitter"]}
{"id": "C136", "title": "Averages of votes in double precision", "statement": "The prediction of a regression forest is the mean of what its trees predict: trees that agree predict what each of them predicts, and the order in which their votes arrive makes no difference.", "quantifier": "for all finite votes of weight one, their order and the number of trees", "why_tests_cant": "The error of the running mean grows with the number of votes, and the order of votes depends on the scheduler.", "anchors": ["utils.go:RunningMean.WeightedAdd", "numballotbox.go:NumBallotBox.Vote", "numballotbox.go:NumBallotBox.TallyNum"]}
{"id": "C137", "title": "Names and origins of the target", "statement": "The questions of a tree depend on the target only through which cases are alike: not on the names of the classes or the order in which they appear in the file, nor on the origin or the sign of a numerical target; predictions move with the target.", "quantifier": "for all matrices, bags, random numbers, maximal depths and numberings of the classes, without -vet and -evaloob, in exact arithmetic", "why_tests_cant": "Tests grow trees from one coding of the target; a class number that leaks into an impurity changes splits without failing.", "anchors": ["tree.go:Tree.Grow", "densecatfeature.go:DenseCatFeature.ImpFromCounts", "entropytarget.go:EntropyTarget.ImpFromCounts", "densenumfeature.go:DenseNumFeature.SplitImpurity", "densenumfeature.go:DenseNumFeature.Mean"]}
{"id": "C138", "title": "The cost of sorting", "statement": "SortBy takes a number of comparisons and exchanges proportional to n log n whatever the values, as it changes to heap sort at depth 2*ceil(lg(n+1)), and its stack depth is at most lg n.", "quantifier": "for all numbers of cases and all values, ties, infinities and NaN included", "why_tests_cant": "Inputs that make quicksort slow are rare and tests do not count comparisons; a missing depth limit only shows as time.", "anchors": ["sortby/sortby.go:SortBy", "sortby/sortby.go:quickSort", "sortby/sortby.go:doPivot", "sortby/sortby.go:heapSort", "sortby/sortby.go:siftDown"]}
{"id": "C139", "title": "What a parser returns has no holes", "statement": "A matrix that ParseAFM, ParseARFF or ParseLibSVM returns is rectangular whatever the text: every feature has one value or missing mark for every case label, and every known category has a number that was given to a name.", "quantifier": "for all texts and all functions that read numbers", "why_tests_cant": "Test files are well formed; growing and voting index every feature by every case, so one short column is a panic far from its cause.", "anchors": ["featurematrix.go:ParseAFM", "featurematrix.go:LoadCases", "featurematrix.go:ParseFeature", "arff.go:ParseARFF", "libsvm.go:ParseLibSVM"]}
{"id": "C140", "title": "From a data file to predictions", "statement": "A table in AFM format is read by growforest, which writes a forest, and applyforest reads table and forest. On the whole way nothing panics; every tree answers for a case with the most frequent class, or the mean value, of the cases of its bag that fall into the same leaf; and applyforest predicts a class that most trees answer, or the mean of their answers.", "quantifier": "for all texts that parse to a table with distinct names, finite numbers, no marks of the forest format in names and a target that is known for some case; all choices of target, blacklist, regular expressions, mTry up to the number of features, leafSize, nSamples, number of trees, depth, -nobag, -force, -extra, -oob, -progress and -test; all random streams", "why_tests_cant": "Each command is tested alone on fixed files; that what one writes is what the other needs, and that a prediction can be traced to the cases it was learnt from, concerns all tables at once.", "anchors": ["growforest/growforest.go:main", "applyforest/applyforest.go:main", "featurematrix.go:ParseAFM", "tree.go:Grow", "forestreader.go:ReadForest", "catballotbox.go:Tally", "numballotbox.go:Tally"]}
{"id": "C141", "title": "leafcount with threads", "statement": "leafcount counts every tree of every file exactly once, whatever the number of threads and however they are scheduled: it ends, and the table of cases has for each two cases the number of trees in which they share a leaf, the table of features for each case and feature the number of splits of the case by it.", "quantifier": "for all data that parse, all lists of files that hold forests, all numbers of threads and all schedules", "why_tests_cant": "Tests run one thread on one file; a lost file, a file counted twice or a program that waits for ever depend on the schedule.", "anchors": ["leafcount/leafcount.go:main", "tree.go:GetLeaves", "utils.go:SparseCounter"]}
{"id": "C142", "title": "Density trees divide where the density differs", "statement": "A division chosen for a density estimating tree lowers the loss of the paper the code cites, - |t|^2 / (N^2 V) summed over leaves: its gain is zero when both children are as dense as the node, and of two divisions the one that lowers the loss more is preferred.", "quantifier": "for all lists of categorical features, all nodes and all divisions in two", "why_tests_cant": "A test has to know the loss of the paper; trees grown with the opposite sign look like any other trees.", "anchors": ["densitytarget.go:SplitImpurity", "densitytarget.go:Impurity", "growforest/growforest.go:main"]}
{"id": "C143", "title": "Costs and weights by class name", "statement": "Misclassification costs, disutilities and class weights given by name on the command line reach the classes they name, and a leaf predicts a class that occurs among its cases.", "quantifier": "for all categorical targets, all maps from names to numbers and all leaves", "why_tests_cant": "Tests list every class; a class left out or misspelled gets zero without a word, which only shows in leaves that have no other class.", "anchors": ["regrettarget.go:SetCosts", "dentropytarget.go:SetCosts", "wrftarget.go:NewWRFTarget", "growforest/growforest.go:main"]}
{"id": "C144", "title": "Predicting other data", "statement": "A forest grown on one file, saved, and applied to another file answers each new case from the training cases that share its leaf, finding features by name wherever their columns are: a new case with the values of a training case is answered like it, and a feature the other file lacks counts as missing.", "quantifier": "for all training texts with usable values, all options without boosting, all random draws and all other texts", "why_tests_cant": "Tests apply a forest to the file it was grown on, where columns, codes of categories and missing features never differ.", "anchors": ["growforest/growforest.go:main", "applyforest/applyforest.go:main", "splitter.go:Split", "forestreader.go:ReadForest", "tree.go:Vote"]}
{"id": "C145", "title": "A regression forest does not extrapolate", "statement": "Whatever file a saved regression forest is applied to, each prediction is a number between the smallest and the largest known value of the target in the training data, or NA.", "quantifier": "for all training texts with a numerical target, all options without boosting, all random draws and all other texts", "why_tests_cant": "Tests compare predictions with expected ones on the training range; no finite set of new cases shows that none is out of range.", "anchors": ["growforest/growforest.go:main", "applyforest/applyforest.go:main", "densenumfeature.go:FindPredicted", "numballotbox.go:Tally"]}
{"id": "C146", "title": "The size of trees and forest files", "statement": "A tree grown from n samples with leaf size l has at most n/l leaves on its left and right branches, so its depth and the length of the saved file are limited by n/l: the file has one line for each tree and one for each node.", "quantifier": "for all training matrices, all split settings, all random draws, all numbers of trees and all leaf sizes", "why_tests_cant": "Tests look at single trees; that no data makes the file explode is a statement about all of them.", "anchors": ["tree.go:Grow", "growforest/growforest.go:main", "forestwriter.go:WriteNodeAndChildren", "forestwriter.go:WriteTree"]}
{"id": "C147", "title": "Several workers", "statement": "With -nCores above 1 the workers of growforest together grow exactly as many trees as asked for, whichever comes first, and do not disturb each other: each tree is grown from its own bag as a single worker would grow it, and a worker's trees are the ones it would grow alone.", "quantifier": "for all training matrices and settings, all numbers of workers and trees, all random numbers the workers see and all orders in which they record their trees", "why_tests_cant": "Schedules cannot be enumerated by tests; a lost or extra tree shows only under some of them.", "anchors": ["growforest/growforest.go:main"]}
{"id": "C148", "title": "Boosting from a data file to predictions", "statement": "growforest -gbt writes a forest of regression trees of which each answers with the mean, over the training cases of its bag in the same leaf, of what the trees before it have left of the target; applyforest -sum predicts the mean of the target plus the learning rate times the sum of the answers. If every tree is grown from all cases and the learning rate is at most 2, no tree increases the squared error of these predictions.", "quantifier": "for all clean tables with a numerical target, all options of the two commands that are modelled, all learning rates above zero, all random numbers", "why_tests_cant": "Each step is tested at best alone; that residuals, tree weights, intercept, file and votes fit together shows only in the composition.", "anchors": ["growforest/growforest.go:main", "applyforest/applyforest.go:main", "gradboosttarget.go:GradBoostTarget"]}
{"id": "C149", "title": "Boosting of two classes from a data file to predictions", "statement": "growforest -gbt on a target with classes writes a forest that starts at the logarithm of the odds of the positive class. Each tree answers with one step of Newton's method for the likelihood of the labels of the training cases of its bag in the same leaf, at the probabilities that the trees before it give. applyforest -sum predicts the start plus the learning rate times the sum of the answers, and with -expit the probability for it.", "quantifier": "for all clean tables with known classes, all options of the two commands that are modelled, all learning rates above zero, all random numbers", "why_tests_cant": "Each step is tested at best alone; that labels, residuals, tree weights, prior, file and votes fit together shows only in the composition.", "anchors": ["growforest/growforest.go:main", "applyforest/applyforest.go:main", "gradboostclasstarget.go:GradBoostClassTarget"]}
{"id": "C150", "title": "Growing a tree in double precision ends and respects its limits", "statement": "A tree grown in floating point arithmetic is finished after finitely many splits: every split sends at least the smallest leaf size of cases to either side, so no node is deeper than the number of cases or the given depth, and every leaf predicts what is predicted for the cases that land in it.", "quantifier": "for all feature matrices of numbers and categories, all targets with lawful impurities, all options, all random numbers", "why_tests_cant": "Rounding of thresholds and overflow matter only for values that tests do not use; a program that never ends is not found by a test that ends.", "anchors": ["densenumfeature.go:BestNumSplit", "featurematrix.go:BestSplitter", "tree.go:Grow"]}
{"id": "C151", "title": "Trees grown in double precision are the best up to rounding, and fit their training cases", "statement": "Rounding does not spoil the search: every split of a tree grown in floating point arithmetic lowers the exact impurity of the cases at its node as much as any candidate could, up to a tiny bound, no leaf could be divided to advantage by more than the bound, and a tree grown without limits gives every training case its own class whenever some candidate tells the classes apart.", "quantifier": "for all feature matrices, all classes, all random numbers, up to 2^24 classes and 2^26 cases", "why_tests_cant": "Rounding errors of all candidates at all nodes combine; a test compares a few trees with a few others and sees neither the bound nor the cases where it matters.", "anchors": ["densecatfeature.go:Gini", "densenumfeature.go:BestNumSplit", "densecatfeature.go:BestSplit", "featurematrix.go:BestSplitter", "tree.go:Grow"]}
{"id": "C152", "title": "Regression trees grown in double precision are the best up to rounding, and fit whole numbers", "statement": "Every split of a regression tree grown in floating point arithmetic lowers the exact sum of squared deviations at its node as much as any candidate could, up to a tiny bound, no leaf could be divided to advantage by more than the bound, and a tree grown without limits puts training cases into one leaf only if their targets are the same, whenever some candidate tells them apart.", "quantifier": "for all feature matrices, all numerical targets, all random numbers and all bags of cases", "why_tests_cant": "The sums are kept up to date by subtraction from case to case, so errors of rounding build up over all cases of a node and all nodes; targets of a test are few and small.", "anchors": ["densenumfeature.go:UpdateSImpFromAllocs", "densenumfeature.go:SplitImpurity", "densenumfeature.go:Impurity", "densenumfeature.go:BestNumSplit", "featurematrix.go:BestSplitter", "tree.go:Grow"]}
{"id": "C153", "title": "A regression tree does not depend on the origin or unit of its target", "statement": "A regression tree for a target to which a number has been added, or that is in another unit, asks the same questions as the tree for the target itself when it is grown with the same random numbers, and its predictions are those of that tree with the number added, or in the other unit.", "quantifier": "for all feature matrices, all numerical targets, all numbers that are added, all random numbers and all bags of cases", "why_tests_cant": "Impurities are made from sums and sums of squares that change with the origin; that all the differences they are judged by stay the same for all targets and all nodes is not seen from a few trees.", "anchors": ["densenumfeature.go:Impurity", "densenumfeature.go:SplitImpurity", "densenumfeature.go:UpdateSImpFromAllocs", "densenumfeature.go:FindPredicted", "l1target.go:Impurity", "featurematrix.go:BestSplitter", "tree.go:Grow"]}
{"id": "C154", "title": "A classification tree does not depend on the numbers of the classes", "statement": "Classes get their numbers in the order in which they are first seen; a classification tree that is grown with the same random numbers asks the same questions and predicts the same classes, whatever the numbers are and whatever other classes have been seen.", "quantifier": "for all feature matrices, all pairs of class targets that read the same, all random numbers and all bags of cases", "why_tests_cant": "Counters are indexed by the numbers of classes and go around all of them; a test has one numbering, and an error for a class number that no training case of a node has would not be seen.", "anchors": ["catmap.go:CatToNum", "densecatfeature.go:CountPerCat", "densecatfeature.go:ImpFromCounts", "densecatfeature.go:FindPredicted", "entropytarget.go:ImpFromCounts", "featurematrix.go:BestSplitter", "tree.go:Grow"]}
{"id": "C155", "title": "Boosting in double precision keeps account of the target", "statement": "When sums, products and differences of gradient boosting and of the votes are rounded to double precision, the prediction of the boosted trees and the residual that is left still add up to the original target of every case, up to a rounding error that grows with the number of trees and is bounded by (T+1)(T+3)B/2^51 for T trees and numbers of size at most B.", "quantifier": "for all feature matrices, all targets without missing values, all learning rates between zero and one and all sequences of at most 2^40 trees that do not split on the target", "why_tests_cant": "Rounding errors of many small steps add up or cancel depending on the numbers; a test compares with a tolerance for one set of them, and shows neither how the error grows nor that no overflow occurs on the way.", "anchors": ["gradboosttarget.go:NewGradBoostTarget", "gradboosttarget.go:Boost", "gradboosttarget.go:Update", "sumballotbox.go:Vote", "applyforest/applyforest.go:main", "forrest.go:GrowRandomForest"]}
{"id": "C156", "title": "Boosted predictions move with the origin of the target", "statement": "When the same number is added to every value of the target of gradient boosting, the same trees are grown from the same samples and random numbers, and every prediction, for the training data or others, is greater by that number.", "quantifier": "for all feature matrices, all numerical targets, all numbers added, all options, samples and random numbers", "why_tests_cant": "A test with one target cannot see whether the origin leaks into the residuals; tests that centre their data hide it.", "anchors": ["gradboosttarget.go:NewGradBoostTarget", "gradboosttarget.go:Boost", "gradboosttarget.go:Update", "sumballotbox.go:Tally", "growforest/growforest.go:main", "forrest.go:GrowRandomForest"]}
{"id": "C157", "title": "It does not matter which of two classes is called positive", "statement": "Gradient boosting of a target with two classes gives the same model whichever of the two is given as the positive class: from the same samples and random numbers the trees ask the same questions, the prior and the numbers in the leaves differ in sign only, and for every case of any data the two probabilities add up to one.", "quantifier": "for all feature matrices, all targets of which every case has one of two classes, all learning rates, samples and random numbers", "why_tests_cant": "Tests fix the positive class; that the two directions agree after many rounds of growing and updating involves every split and every leaf.", "anchors": ["gradboostclasstarget.go:NewGradBoostClassTarget", "gradboostclasstarget.go:Boost", "gradboostclasstarget.go:Predicted", "gradboostclasstarget.go:Update", "gradboostclasstarget.go:Expit", "forrest.go:GrowRandomForest", "growforest/growforest.go:main"]}
{"id": "C158", "title": "Boosting two classes in double precision stays within bounds", "statement": "In double precision, gradient boosting of two classes keeps every probability a number between zero and one that does not fall when the log odds grow, every residual between zero and one for cases of the positive class and between minus one and zero for the others, and in every leaf predicts a finite number: at least one in a leaf of positive cases only, at most minus one in a leaf without any.", "quantifier": "for all targets of two or more classes, all positive classes, learning rates and sequences of trees, all leaves, and every tanh that lies between minus one and one and does not decrease", "why_tests_cant": "Rounding makes probabilities exactly zero or one only after hundreds of trees on well separated data; small tests never get there.", "anchors": ["gradboostclasstarget.go:Expit", "gradboostclasstarget.go:NewGradBoostClassTarget", "gradboostclasstarget.go:Boost", "gradboostclasstarget.go:Predicted", "gradboostclasstarget.go:Update"]}
{"id": "C159", "title": "Boosting with several workers keeps account and does not increase the error", "statement": "However the steps of several workers interleave, gradient boosting keeps account: for every training case the original value is what the recorded trees predict plus the residual that is left. And adding the trees of a round does not increase the squared error on the training cases.", "quantifier": "for all numerical targets without missing values, all data, numbers of workers, learning rates and orders of the workers' steps", "why_tests_cant": "The interleaving of workers is different in every run and on every machine; with one worker, or on two cores, nothing is wrong.", "anchors": ["growforest/growforest.go:main", "gradboosttarget.go:Boost", "gradboosttarget.go:Update", "tree.go:Partition"]}
{"id": "C160", "title": "A boosted forest predicts other data by what it learned", "statement": "A boosted forest grown from one file, written, read and applied to another file predicts for each case the mean of the training target plus the learning rate times the sum of what its trees say; each tree says the mean of the residuals of the training cases of its bag in the same leaf, with features found by name. A case with the values of a training case gets the prediction of that case.", "quantifier": "for all pairs of texts that parse, all options of growforest in the model, all learning rates and random streams", "why_tests_cant": "The other table may have its columns in any order, other classes, other missing values; tests apply forests to the table they were grown from.", "anchors": ["growforest/growforest.go:main", "applyforest/applyforest.go:main", "forestreader.go:ReadForest", "tree.go:Vote", "sumballotbox.go:Tally"]}
{"id": "C161", "title": "Boosted predictions on any data are bounded by the training target", "statement": "If no value of the training target is further than A from its mean, no prediction of a boosted forest of N trees, for whatever case of whatever file, is further than A((1+lr)^N - 1) from that mean. If every tree uses all cases and the learning rate is at most two, the square of the distance is at most (lr N)^2 times the sum of squared distances of the target from its mean.", "quantifier": "for all pairs of texts that parse, all numbers of trees, learning rates and random streams", "why_tests_cant": "Which leaf a case of other data reaches in each tree is not limited by the training data: no sample of cases shows the worst combination.", "anchors": ["growforest/growforest.go:main", "gradboosttarget.go:Boost", "gradboosttarget.go:Update", "sumballotbox.go:Tally"]}
{"id": "C162", "title": "A forest that boosts two classes predicts other data by what it learned", "statement": "A forest boosted for two classes from one file, written, read and applied with -sum to another file predicts for each case the logarithm of the training odds plus the learning rate times the sum of what its trees say; each tree says Newton's step over the training cases of its bag in the same leaf, with features found by name. With -expit the prediction is a probability strictly between 0 and 1, for any case. A case with the values of a training case gets the prediction of that case.", "quantifier": "for all pairs of texts that parse, all options of growforest in the model, all learning rates, positive classes and random streams", "why_tests_cant": "The other table may have its columns in any order, other classes, other missing values; tests apply forests to the table they were grown from.", "anchors": ["growforest/growforest.go:main", "applyforest/applyforest.go:main", "gradboostclasstarget.go:FindPredicted", "tree.go:Vote", "sumballotbox.go:Tally"]}
{"id": "C163", "title": "The probability of the t-test is the tail of Student's distribution", "statement": "The probability that Ttest reports for two samples is the probability that a value with Student's distribution, with Welch's degrees of freedom, exceeds Welch's t, to ten digits.", "quantifier": "for all pairs of samples of at least two values with some variance, and all values", "why_tests_cant": "Tests compare a few samples with a table; fifty rounds of the continued fraction are enough for some degrees of freedom and some t, and the sum they end in cancels for others.", "anchors": ["stats/stats.go:Ttest", "stats/stats.go:regularizedIncompleteBeta", "stats/stats.go:dO", "stats/stats.go:dE", "stats/stats.go:beta"]}
{"id": "C164", "title": "An analysis with artificial contrasts writes a forest of significant features", "statement": "growforest with -ace and a cutoff writes a forest whose trees split only on features of the file that the user has left and whose line in the importance file gives a p below the cutoff and a positive mean importance. The lines are those of the features in their order; p and mean are those of the t-test between the importances of the feature and of its shuffled copy, over as many forests as asked for, each grown from the features and newly shuffled copies of them, where importance is the sum of the decreases of impurity at the splits on the feature, per tree.", "quantifier": "for all data files, targets, options, random numbers and importances", "why_tests_cant": "Which forests are grown depends on the random numbers; a test sees importance files without the forests behind them, and cannot tell that a column of importances belongs to another feature, contrast or forest.", "anchors": ["growforest/growforest.go:main", "featurematrix.go:ContrastAll", "stats/stats.go:Ttest", "utils.go:Read"]}
{"id": "C165", "title": "With -splitmissing, cases that lack a value are predicted from cases that lack it too", "statement": "growforest with -splitmissing gives every split a third branch for cases whose value is missing. applyforest with the forest it has written answers every case of the data without a refusal, and a case that lacks the value asked for at a split is predicted from the cases of the bag that also lacked it there; a case with all values is predicted from the cases of the bag in the same leaf.", "quantifier": "for all data files, targets, options, random numbers and cases", "why_tests_cant": "The third branch only matters for cases with missing values below a split that asks for them, and which of its parts survive writing and reading only shows in predictions for such cases, which no test looks at.", "anchors": ["growforest/growforest.go:main", "tree.go:Grow", "forestwriter.go:WriteNodeAndChildren", "applyforest/applyforest.go:main"]}
{"id": "C166", "title": "With costs or weights of classes, every tree predicts what costs least, and the forest what most trees predict", "statement": "growforest with -cost or -rfweights and numbers for classes by name, or with -NP and a class to constrain, writes a forest whose trees answer with a class of the target by which misclassification of the cases of the bag in the same leaf costs least; a class that is not listed costs nothing, and a case of the constrained class costs the inverse of the constraint. applyforest with this file predicts the class that most trees answer, and nothing panics on the way.", "quantifier": "for all data files, targets with classes, options, costs and weights that are not negative, positive constraints of a class of the data, random numbers and cases", "why_tests_cant": "Numbers given by name pass through a JSON map, the numbering of classes in the order of the file, and a class per leaf in the written forest. A number at the wrong class gives a forest that works and predicts plausibly; tests use two classes and look only at the error.", "anchors": ["growforest/growforest.go:main", "regrettarget.go:SetCosts", "wrftarget.go:FindPredicted", "NPtarget.go:FindPredicted", "applyforest/applyforest.go:main"]}
{"id": "C167", "title": "applyforest reports the error of the predictions that it writes", "statement": "applyforest with a forest of growforest and the data it was grown from ends without a panic. It writes one line for each case, in order, with its label, the prediction and the actual value, and prints the error of these predictions: for classes the mean over the classes of the fraction of cases predicted wrongly, for numbers the mean squared error divided by the variance of the target.", "quantifier": "for all data files, targets, options of both commands, random numbers and orders of iteration over maps", "why_tests_cant": "The error and the lines are worked out by separate calls of Tally, each of which iterates over a map in an order of its own. A test that compares them sees a difference only when trees tie, and then only sometimes; and whether the box fits the kind of the target depends on the name of the target and the options together.", "anchors": ["applyforest/applyforest.go:main", "catballotbox.go:Tally", "catballotbox.go:TallyError", "numballotbox.go:TallyError"]}
{"id": "C168", "title": "Ordinal regression predicts values of the ordinal scale", "statement": "growforest -ordinal on a target of whole numbers that are not negative, followed by applyforest on the same data: each tree answers with a value that is most frequent among the cases of its bag in the same leaf, and what is predicted for a case is a value of the target that most trees answer.", "quantifier": "for all data files, targets of whole numbers, options of both commands, random numbers and orders of iteration over maps", "why_tests_cant": "With an odd number of trees that agree, or a single tree, the mean of the answers is one of them, and a small test sees whole numbers. That the mean leaves the scale shows only when trees disagree, and the option that would prevent it is never tried on data that contain the target.", "anchors": ["ordinaltarget.go:NewOrdinalTarget", "ordinaltarget.go:Mode", "ordinaltarget.go:FindPredicted", "growforest/growforest.go:main", "applyforest/applyforest.go:main"]}
{"id": "C169", "title": "A forest grown with -impute predicts cases with missing values as if they were filled in", "statement": "growforest -impute grows from the table in which missing values are filled in, numbers with the mean of those known and classes with one most frequent, of cases with a known target. Applied to the same data, every case is predicted, by the answers the trees give for the filled in table: of each tree, the most frequent class (or mean) among the cases of its bag in the same leaf.", "quantifier": "for all data files in which each feature has a known value, targets, options, random numbers and orders of iteration over maps", "why_tests_cant": "The forest itself is sound; what is wrong is only seen by applying it to data with missing values, and in the accuracy on cases that had no target, which nobody measures.", "anchors": ["growforest/growforest.go:main", "featurematrix.go:ImputeMissing", "densenumfeature.go:ImputeMissing", "densecatfeature.go:ImputeMissing", "applyforest/applyforest.go:main"]}
{"id": "C170", "title": "-permute and -shuffleRE give the forest of the table with values moved, and nothing else", "statement": "growforest with -permute or -shuffleRE grows the forest from a table that has the values of the data file, those of the target (with -permute) and of the other features with matching names (with -shuffleRE) moved from case to case together with their marks of missing values, all others in place. Written, read and applied to any text, each tree answers with the most frequent class (or mean) among the moved targets of the cases of its bag in the same leaf, and the forest with a class most trees answer (or the mean of answers). With -permute alone the cases of the data file are answered by the leaves they were in when the tree was grown.", "quantifier": "for all data files with distinct names, finite numbers and strings free of the marks of the forest format, targets whose kind applyforest knows by name or is told, options but -vet with -evaloob, random numbers, scheduling and orders of iteration over maps", "why_tests_cant": "Predictions from permuted data look like noise whether or not the permutation is right; values that part from their marks of missing values, or a shuffle that reaches a feature it should not, are invisible in them.", "anchors": ["growforest/growforest.go:main", "densecatfeature.go:Shuffle", "densenumfeature.go:Shuffle", "applyforest/applyforest.go:main"]}
{"id": "C171", "title": "Out-of-bag error and predictions are those of the trees grown without the case", "statement": "growforest with -oob and -oobpreds writes the same forest as without, and for each case of the data file a line with its label, what is predicted by the trees that do not have the case in their bag, and the actual value. Predicted is a class most of these trees answer, or the mean of their answers, and NA if there are none, where each tree answers with the most frequent class (or mean) of the cases of its bag in the same leaf. The error printed is the mean over classes of the fraction predicted wrongly (for numbers, the mean squared difference divided by the variance) over the cases that are predicted.", "quantifier": "for all data files with distinct names, finite numbers and strings free of the marks of the forest format, options but -vet with -evaloob, random numbers, scheduling, orders in which the trees of workers vote and orders of iteration over maps", "why_tests_cant": "Each run draws its own bags, so there is no value to compare an out-of-bag error with; votes lost or counted twice, or votes of trees that have seen the case, only make it a little worse or better.", "anchors": ["growforest/growforest.go:main", "tree.go:VoteCases", "tree.go:Grow", "catballotbox.go:TallyError", "numballotbox.go:TallyError"]}
{"id": "C172", "title": "growforest -test reports what applyforest reports for the forest written", "statement": "The votes that growforest counts with -test (on a test file) or -selftest (on its own data), and the error it prints, are those of applyforest run with the forest file that growforest has written and the same data. Every tree of the file votes once; features and classes of the test file may be in another order than in training; neither panics unless the other does.", "quantifier": "for all data files with distinct names, finite numbers and strings free of the marks of the forest format, test files with the target, options but -vet with -evaloob, random numbers, numbers of trees and workers, and scheduling", "why_tests_cant": "The last tree of a run is one of a hundred, so an error printed with one tree lost and another counted twice looks like any other error; whoever compares both programs on a large forest sees a difference of less than a percent that ties explain as well.", "anchors": ["growforest/growforest.go:main", "applyforest/applyforest.go:main", "tree.go:StripCodes", "tree.go:Vote"]}
{"id": "C173", "title": "The importance file says how the trees of the forest file use the features", "statement": "growforest with -importance writes the same forest as without it, and an importance file whenever it writes a forest. The file has a line per feature of the table, in order, with the mean decrease of impurity of the splits on the feature in the trees written, each over the cases of the tree's bag that arrive there, the number of these splits, the sum of the decreases per tree and per tree that uses the feature, the number of trees that use it, and the mean of the least depth at which they do.", "quantifier": "for all data files with distinct names, finite numbers and strings free of the marks of the forest format, missing values included, classes and numbers as target, options, random numbers and numbers of trees", "why_tests_cant": "The numbers are sums over thousands of splits of random trees that nobody computes by hand; a count of trees that forgets the most important place of a feature, the root, ranks the features plausibly enough.", "anchors": ["growforest/growforest.go:main", "tree.go:Grow", "utils.go:RunningMean.Add"]}
{"id": "C174", "title": "The mode of a numerical feature is its most frequent known value", "statement": "DenseNumFeature.Mode returns a value that is the value of a known one of the listed cases and of no fewer known cases than any other value, and two calls return the same. Taking out the missing cases with FilterMissing first changes nothing.", "quantifier": "for all numerical features, lists of cases with repetitions, missing values and orders of iteration over maps", "why_tests_cant": "Go iterates over a map in a random order, so a test sees one of many results; a number that is not equal to itself needs a data file that contains NaN.", "anchors": ["densenumfeature.go:Mode", "densenumfeature.go:FilterMissing", "densecatfeature.go:FilterMissing"]}
{"id": "C175", "title": "Data files load by their format, packed or not", "statement": "LoadAFM reads a file whose name ends in .arff as ARFF, one whose name ends in .libsvm as libsvm and every other one as an annotated feature matrix, so that what the project's writers write is loaded with its values. It returns an error exactly if the file cannot be opened, and otherwise a matrix. A zip archive is loaded as the first file in it would be.", "quantifier": "for all file names, contents and archives", "why_tests_cant": "The formats, the names and the packing combine; a test packs the usual format only, and an archive without files or with another format inside is not thought of.", "anchors": ["featurematrix.go:LoadAFM", "arff.go:ParseARFF", "libsvm.go:ParseLibSVM", "featurematrix.go:ParseAFM"]}
