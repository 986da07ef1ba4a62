import Verif.Props.CatMap
import Verif.Props.Split
import Verif.Props.SortBy
import Verif.Props.Tree
import Verif.Props.Grow
import Verif.Props.Impurity
import Verif.Props.Search
import Verif.Props.Shuffle
import Verif.Props.Splitter
import Verif.Props.Sampling
import Verif.Props.Ballot
import Verif.Props.Concurrent
import Verif.Props.Pool
import Verif.Props.Sf
import Verif.Props.Values
import Verif.Props.Matrix
import Verif.Props.Libsvm
import Verif.Props.Options
import Verif.Props.Boost
import Verif.Props.ClassBoost
import Verif.Props.Regression
import Verif.Props.Density
import Verif.Props.Jungle
import Verif.Props.AdaBoost
import Verif.Props.Score
import Verif.Props.Targets
import Verif.Props.Targets2
import Verif.Props.Targets3
import Verif.Props.Scikit
import Verif.Props.Nfold
import Verif.Props.Heap
import Verif.Props.Books
import Verif.Props.Driver
import Verif.Props.Report
import Verif.Props.Stats
import Verif.Props.Apply
import Verif.Props.Leafcount
import Verif.Props.Oob
import Verif.Props.Toafm
import Verif.Props.Choose
import Verif.Props.AdaCost
import Verif.Props.DEntropy
import Verif.Props.Saved
import Verif.Props.Library
import Verif.Props.Setup
import Verif.Props.Table
import Verif.Props.Run
import Verif.Props.Fair
import Verif.Props.Greedy
import Verif.Props.Squares
import Verif.Props.Vet
import Verif.Props.Units
import Verif.Props.Rounding
import Verif.Props.RoundedTarget
import Verif.Props.NfoldRun
import Verif.Props.Fit
import Verif.Props.BoostRun
import Verif.Props.AdaRun
import Verif.Props.RoundedGini
import Verif.Props.Account
import Verif.Props.RoundedVotes
import Verif.Props.Labels
import Verif.Props.SortCost
import Verif.Props.Parsed
import Verif.Props.Commands
import Verif.Props.LeafcountRun
import Verif.Props.DensityTree
import Verif.Props.CostNames
import Verif.Props.OtherData
import Verif.Props.TreeSize
import Verif.Props.Cores
import Verif.Props.BoostCommand
import Verif.Props.ClassBoostCommand
import Verif.Props.RoundedGrow
import Verif.Props.RoundedFit
import Verif.Props.RoundedRegression
import Verif.Props.Origin
import Verif.Props.Numbering
import Verif.Props.RoundedBoost
import Verif.Props.BoostOrigin
import Verif.Props.Positive
import Verif.Props.RoundedClassBoost
import Verif.Props.BoostCores
import Verif.Props.OtherBoost
import Verif.Props.OtherClassBoost
import Verif.Props.StudentRounded
import Verif.Props.Ace
import Verif.Props.Missing
import Verif.Props.CostCommand
import Verif.Props.ApplyWhole
import Verif.Props.OrdinalCommand
import Verif.Props.ImputeCommand
import Verif.Props.ShuffleCommand
import Verif.Props.OobCommand
import Verif.Props.TestCommand
import Verif.Props.ImpCommand
import Verif.Props.NumMode
import Verif.Props.Load
