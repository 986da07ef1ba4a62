import Verif.Model.Commands

/-!
# applyforest to its end (applyforest/applyforest.go:33-108)
-/

namespace CloudForest
variable {K : Type} [Field K] [LinearOrder K] [IsStrictOrderedRing K]

/-- applyforest with `-preds` (applyforest.go:33-108): the error that it prints if the data have the target, and the lines that it writes,
each with the label of the case, the prediction and the actual value. `counted i` is what `Tally` returns for case `i` when the
error is worked out (77), `shown i` the result that is written (90-105); both are open as far as `Tally` is. Simplified: the
table of votes is `Box.voteTable`. -/
def applyWhole (nt : NumText K) (o : ApplyOptions) (forestText dataText : Text) (counted shown : Nat → Option String) :
    Option (Option (XF K) × List (String × String × String)) := do
  let fm ← parseAFM nt dataText
  let (forest, bb) ← applyCommand nt o forestText dataText
  let target ← match fm.map forest.target with
    | none => some none
    | some i => (fm.data[i]?).map some
  let err ← match target with
    | none => some none
    | some f => (bb.error counted f).map some
  let lines ← (List.range fm.caseLabels.length).mapM fun i => do
    let l ← fm.caseLabels[i]?
    let actual ← match target with
      | none => some "NA"
      | some f => f.getStr nt i
    let result ← shown i
    some (l, result, actual)
  some (err, lines)

end CloudForest
