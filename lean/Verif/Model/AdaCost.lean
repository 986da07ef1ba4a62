import Verif.Model.Targets

/-!
# Cost-sensitive adaptive boosting (adacosttarget.go)
-/

namespace CloudForest
variable {K : Type} [Field K] [LinearOrder K] [IsStrictOrderedRing K]

/-- `NewAdaCostTarget` (adacosttarget.go:26-33): the weights and the costs. -/
def newAdaCost (f : CatFeature) : List (XF K) × List (XF K) :=
  (List.replicate f.missing.length (.fin 1 / .ofNat f.missing.length), List.replicate f.cm.nCats (.fin 0))

/-- `SetCosts` (adacosttarget.go:37-42, and the same in dentropytarget.go:28-33, regrettarget.go:29-34): a name that is
not in the map has cost zero. `costs` are those before; fewer than there are categories panic. -/
def setCosts (f : CatFeature) (costmap : String → Option (XF K)) (costs : List (XF K)) : Option (List (XF K)) :=
  f.cm.back.zipIdx.foldlM (fun costs x => wr costs x.2 ((costmap x.1).getD (.fin 0))) costs

/-- The change of the weight of one case in a leaf of class `m` (adacosttarget.go:154-163). -/
def adaCostReweigh (el : ExpLog K) (f : CatFeature) (costs : List (XF K)) (alpha : XF K) (m : Nat)
    (weights : List (XF K)) (c : Nat) : Option (List (XF K)) := do
  let miss ← f.missing[c]?
  if miss then some weights else do
    let k ← f.catData[c]?
    let w ← weights[c]?
    let x ← costs[k]?
    wr weights c (w * (if k ≠ m then el.exp alpha else el.exp (-alpha)) * x)

/-- `AdaCostTarget.Boost` (adacosttarget.go:131-174): the new case weights and the tree's weight. -/
def adaCostBoost (el : ExpLog K) (f : CatFeature) (costs weights : List (XF K)) (leaves : List (List Nat)) :
    Option (List (XF K) × XF K) := do
  let (err, counter) ← leaves.foldlM (fun (acc : XF K × List Int) cases => do
    let counter ← f.countPerCat cases acc.2
    let e ← adaCostImpFromCounts f weights costs cases counter
    some (acc.1 + e, counter)) (.fin 0, List.replicate f.cm.nCats 0)
  if (.fin (1 / 2) : XF K) ≤ err then some (weights, .fin 0) else do
    let alpha := .fin (1 / 2) * el.log ((.fin 1 - err) / err)
    let (weights, _) ← leaves.foldlM (fun (acc : List (XF K) × List Int) cases => do
      let counter ← f.countPerCat cases acc.2
      let weights ← cases.foldlM (adaCostReweigh el f costs alpha (firstMost counter)) acc.1
      some (weights, counter)) (weights, counter)
    let norm := weights.foldl (· + ·) (.fin 0)
    some (weights.map (· / norm), alpha)

end CloudForest
