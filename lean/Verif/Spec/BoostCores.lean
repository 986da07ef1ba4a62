import Verif.Model.BoostCores
import Verif.Spec.BoostRun
import Verif.Spec.Boost
import Verif.Spec.Splitter
import Verif.Spec.Grow

/-!
# Orders of the steps of several workers
-/

namespace CloudForest

/-- An order of steps that the workers can take: each grows a tree and boosts with it, in turn. `busy` tells who has a tree. -/
def Possible : List Bool → List PoolStep → Prop
  | _, [] => True
  | busy, .grow w _ :: steps => busy[w]? = some false ∧ Possible (busy.set w true) steps
  | busy, .boost w :: steps => busy[w]? = some true ∧ Possible (busy.set w false) steps

/-- How many trees an order of steps boosts with. -/
def boosts : List PoolStep → Nat
  | [] => 0
  | .grow _ _ :: steps => boosts steps
  | .boost _ :: steps => boosts steps + 1

/-- Workers in step: every worker grows a tree, worker `w` from `bags[w]`, then they boost, in the order `order`. -/
def inStep (bags : List (List Nat)) (order : List Nat) : List PoolStep :=
  (bags.zipIdx.map fun x => .grow x.2 x.1) ++ order.map .boost

variable {K : Type} [Field K] [LinearOrder K] [IsStrictOrderedRing K] {τ : Type}

/-- A worker's state that trees can be grown with: enough candidates, all of them features and none the target. -/
structure WorkerFit (b : BoostSetup K τ) (fm : FeatureMatrix K) (n : Nat) (st : SplitState K) : Prop where
  exist : ∀ i ∈ st.cans, i < fm.data.length
  avoid : b.ti ∉ st.cans
  enough : b.o.mTry ≤ st.cans.length
  oob : ∀ c ∈ st.oob, c < n

/-- Data and options: numbers are read as they were written, feature `ti` is the target, a value is recorded for every case or it
is marked missing, and neither `-vet` nor `-evaloob` is on. -/
structure PoolData (b : BoostSetup K τ) (nt : NumText K) (fm : FeatureMatrix K) (n : Nat) (f : NumFeature K) : Prop where
  text : ∀ x, nt.parse (nt.fmt x) = some x
  target : fm.data[b.ti]? = some (.num f)
  cases : fm.allCases = some (List.range n)
  length : (Feature.num f).length = n
  matrix : MatrixOk fm (List.range n)
  feats : ∀ F ∈ fm.data, FeatOk F (List.range n)
  vet : b.o.vet = false
  evaloob : b.o.evaloob = false
  leaf : 1 ≤ b.o.leafSize

end CloudForest
