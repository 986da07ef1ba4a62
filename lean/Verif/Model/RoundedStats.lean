import Verif.Model.Stats
import Verif.Model.Rounding

/-!
# Welch's t-test in floating point (stats/stats.go)

Every result is rounded by `r`. Simplified: every product is rounded before it is added or subtracted, as on amd64; where the machine has a fused
operation Go may use it in `v += x * x`, `v -= n * m * m` (stats/stats.go:15, 19), in `t*t + v` (stats/stats.go:46) and in the denominators of
`dO` and `dE`. `math.Sqrt`, `math.Pow` and `beta` are given and not rounded again.
-/

namespace CloudForest
variable {K : Type} [Field K] [LinearOrder K] [IsStrictOrderedRing K]

/-- `MeanAndVar` (stats/stats.go:12-22), rounded. -/
def meanAndVarR (r : K → XF K) (xs : List (XF K)) : XF K × XF K × XF K :=
  let R := XF.rounded r
  let m := xs.foldl (fun m x => R (m + x)) (.fin 0)
  let v := xs.foldl (fun v x => R (v + R (x * x))) (.fin 0)
  let n := R (XF.ofNat xs.length)
  let m := R (m / n)
  let v := R (v - R (R (n * m) * m))
  (m, R (v / R (n - .fin 1)), n)

/-- `dO` (stats/stats.go:95-97), rounded; the factor -1 only turns the sign. -/
def dOR (r : K → XF K) (m x a b : XF K) : XF K :=
  let R := XF.rounded r
  let a2 := R (a + R (.fin 2 * m))
  R (R (R (.fin (-1) * R (a + m) * R (R (a + b) + m)) * x) / R (a2 * R (a2 + .fin 1)))

/-- `dE` (stats/stats.go:99-101), rounded. -/
def dER (r : K → XF K) (m x a b : XF K) : XF K :=
  let R := XF.rounded r
  let a2 := R (a + R (.fin 2 * m))
  R (R (R (m * R (b - m)) * x) / R (R (a2 - .fin 1) * a2))

/-- The continued fraction (stats/stats.go:78-86), from `i` down, rounded. -/
def contFractionR (r : K → XF K) (x a b : XF K) : Nat → XF K → XF K
  | 0, cf => cf
  | i + 1, cf =>
    let R := XF.rounded r
    let m := R (XF.ofNat (i + 1))
    contFractionR r x a b i (R (.fin 1 + R (dER r m x a b / R (.fin 1 + R (dOR r m x a b / cf)))))

/-- `regularizedIncompleteBeta` (stats/stats.go:77-88), rounded. -/
def regIncBetaR (r : K → XF K) (F : MathFns K) (x a b : XF K) : XF K :=
  let R := XF.rounded r
  R (R (F.pow x a * F.pow (R (.fin 1 - x)) b) /
    R (R (a * F.beta a b) * R (.fin 1 + R (dOR r (.fin 0) x a b / contFractionR r x a b 50 (.fin 1)))))

/-- The integral, from `t*t` and `v` (stats/stats.go:46-63), rounded; also the constant 0.9 is. -/
def tailIntegralR (r : K → XF K) (F : MathFns K) (tt v : XF K) : XF K :=
  let R := XF.rounded r
  let ttrans := R (v / R (tt + v))
  if r (9 / 10) < ttrans
    then R (.fin 1 - regIncBetaR r F (R (.fin 1 - ttrans)) (.fin (1 / 2)) (R (v / .fin 2)))
    else regIncBetaR r F ttrans (R (v / .fin 2)) (.fin (1 / 2))

/-- The tail probability (stats/stats.go:46-72), rounded. -/
def tailProbR (r : K → XF K) (F : MathFns K) (t v : XF K) : XF K :=
  let R := XF.rounded r
  let integral := tailIntegralR r F (R (t * t)) v
  if .fin 0 < t then R (integral / .fin 2) else R (.fin 1 - R (integral / .fin 2))

/-- `Ttest` (stats/stats.go:27-74), rounded. -/
def ttestR (r : K → XF K) (F : MathFns K) (A B : List (XF K)) : TTest K :=
  let R := XF.rounded r
  let a := meanAndVarR r A
  let b := meanAndVarR r B
  let as := R (a.2.1 / a.2.2)
  let bs := R (b.2.1 / b.2.2)
  let s := R (as + bs)
  let t := R (R (a.1 - b.1) / F.sqrt s)
  let v := R (R (s * s) / R (R (R (as * as) / R (a.2.2 - .fin 1)) + R (R (bs * bs) / R (b.2.2 - .fin 1))))
  ⟨tailProbR r F t v, t, v, a.1⟩

end CloudForest
