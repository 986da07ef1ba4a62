import Verif.Model.XF

/-!
# Welch's t-test
(stats/stats.go)
-/

namespace CloudForest
variable {K : Type} [Field K] [LinearOrder K] [IsStrictOrderedRing K]

/-- The functions of Go's `math` used, and `beta` made from `math.Exp` and `math.Lgamma`
(stats/stats.go:38, 87, 104-113). Kept abstract. -/
structure MathFns (K : Type) where
  sqrt : XF K → XF K
  pow : XF K → XF K → XF K
  beta : XF K → XF K → XF K

/-- `MeanAndVar` (stats/stats.go:12-22): mean, variance, count. -/
def meanAndVar (xs : List (XF K)) : XF K × XF K × XF K :=
  let m := xs.foldl (fun m x => m + x) (.fin 0)
  let v := xs.foldl (fun v x => v + x * x) (.fin 0)
  let n := XF.ofNat xs.length
  let m := m / n
  let v := v - n * m * m
  (m, v / (n - .fin 1), n)

/-- `dO` (stats/stats.go:95-97). -/
def dO (m x a b : XF K) : XF K :=
  .fin (-1) * (a + m) * (a + b + m) * x / ((a + .fin 2 * m) * (a + .fin 2 * m + .fin 1))

/-- `dE` (stats/stats.go:99-101). -/
def dE (m x a b : XF K) : XF K :=
  m * (b - m) * x / ((a + .fin 2 * m - .fin 1) * (a + .fin 2 * m))

/-- The continued fraction (stats/stats.go:78-86), from `i` down. -/
def contFraction (x a b : XF K) : Nat → XF K → XF K
  | 0, cf => cf
  | i + 1, cf => contFraction x a b i
      (.fin 1 + dE (XF.ofNat (i + 1)) x a b / (.fin 1 + dO (XF.ofNat (i + 1)) x a b / cf))

/-- `regularizedIncompleteBeta` (stats/stats.go:77-88). -/
def regIncBeta (F : MathFns K) (x a b : XF K) : XF K :=
  F.pow x a * F.pow (.fin 1 - x) b /
    (a * F.beta a b * (.fin 1 + dO (.fin 0) x a b / contFraction x a b 50 (.fin 1)))

/-- What `Ttest` returns (stats/stats.go:27). -/
structure TTest (K : Type) where
  p : XF K
  t : XF K
  v : XF K
  am : XF K

/-- The integral, from `t*t` and `v` (stats/stats.go:46-63). -/
def tailIntegral (F : MathFns K) (tt v : XF K) : XF K :=
  let ttrans := v / (tt + v)
  if .fin (9 / 10) < ttrans
    then .fin 1 - regIncBeta F (.fin 1 - ttrans) (.fin (1 / 2)) (v / .fin 2)
    else regIncBeta F ttrans (v / .fin 2) (.fin (1 / 2))

/-- The tail probability (stats/stats.go:46-72). -/
def tailProb (F : MathFns K) (t v : XF K) : XF K :=
  let integral := tailIntegral F (t * t) v
  if .fin 0 < t then integral / .fin 2 else .fin 1 - integral / .fin 2

/-- `Ttest` (stats/stats.go:27-74). -/
def ttest (F : MathFns K) (A B : List (XF K)) : TTest K :=
  let a := meanAndVar A
  let b := meanAndVar B
  let as := a.2.1 / a.2.2
  let bs := b.2.1 / b.2.2
  let s := as + bs
  let t := (a.1 - b.1) / F.sqrt s
  let v := s * s / (as * as / (a.2.2 - .fin 1) + bs * bs / (b.2.2 - .fin 1))
  ⟨tailProb F t v, t, v, a.1⟩

end CloudForest
