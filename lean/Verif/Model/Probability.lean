import Verif.Model.Vectors

/-!
# Model of src/probability.c

Scalars that are passed by address and only read are modelled as values. An `int` is an `Int`; results outside the 32 bit range are
undefined behaviour. The functions that return a `zsl_real_t` report `-EINVAL` as the number -22. Bounds checks are compiled in.
-/

namespace Verif

open Out

variable {R : Type} [CReal R]

/-- The value of an `int` expression: undefined if it does not fit. For the `int` arithmetic of probability.c:150-190. -/
def toInt (z : Int) : Out Int := if -2147483648 ≤ z ∧ z ≤ 2147483647 then ok z else ub

/-- `-EINVAL` converted to a floating point number. For example probability.c:63. -/
def einvalR : R := CReal.ofInt (-EINVAL)

/-- probability.c:14-28 `zsl_prob_uni_pdf`. -/
def probUniPdf (a b x : R) : R :=
  if CReal.ge a b then einvalR
  else if CReal.ge x a && CReal.le x b then lit 1 / (b - a)
  else lit 0

/-- probability.c:30-42 `zsl_prob_uni_mean`; `m` is the previous value of `*m`. -/
def probUniMean (a b m : R) : Int × R :=
  if CReal.ge a b then (-EINVAL, m) else (0, lit 0.5 * (a + b))

/-- probability.c:44-56 `zsl_prob_uni_var`. -/
def probUniVar (a b v : R) : Int × R :=
  if CReal.ge a b then (-EINVAL, v) else (0, (b - a) * (b - a) / lit 12)

/-- probability.c:58-74 `zsl_prob_uni_cdf`. -/
def probUniCdf (a b x : R) : R :=
  if CReal.ge a b then einvalR
  else if CReal.ge x a && CReal.le x b then (x - a) / (b - a)
  else if CReal.lt x a then lit 0
  else lit 1

/-- consts.h:45 `ZSL_PI`. -/
def zslPi : R := lit 3.14159265359

/-- consts.h:62 `ZSL_E`. -/
def zslE : R := lit 2.71828182845

/-- probability.c:76-84 `zsl_prob_normal_pdf`. -/
def probNormalPdf (m s x : R) : R :=
  (lit 1 / (s * CReal.sqrt (lit 2 * zslPi))) * CReal.pow zslE (-lit 0.5 * ((x - m) / s) * ((x - m) / s))

/-- probability.c:86-93 `zsl_prob_normal_cdf`. -/
def probNormalCdf (m s x : R) : R :=
  lit 0.5 * (lit 1 + CReal.erf ((x - m) / (s * CReal.sqrt (lit 2))))

/-- probability.c:110-119: coefficients of the polynomial for the tails, after the leading one. -/
def erfInvTail : List Rat :=
  [2.93243101e-8, 1.22150334e-6, 2.84108955e-5, 3.93552968e-4, 3.02698812e-3, 4.83185798e-3, -2.64646143e-1, 8.40016484e-1]

/-- probability.c:121-130: coefficients of the polynomial for the middle, after the leading one. -/
def erfInvMid : List Rat :=
  [1.43285448e-7, 1.22774793e-6, 1.12963626e-7, -5.61530760e-5, -1.47697632e-4, 2.31468678e-3, 1.15392581e-2, -2.32015476e-1,
    8.86226892e-1]

/-- probability.c:95-132 `zsl_prob_erf_inv`; the chain of `fma` is folded over the coefficients. -/
def probErfInv (x : R) : R :=
  if CReal.le x (lit (-1)) || CReal.ge x (lit 1) then einvalR
  else
    let t := CReal.log (CReal.fma x (lit 0 - x) (lit 1))
    let p := if CReal.gt (CReal.abs t) (lit 6.125) then erfInvTail.foldl (fun p q => CReal.fma p t (lit q)) (lit 3.03697567e-10)
      else erfInvMid.foldl (fun p q => CReal.fma p t (lit q)) (lit 5.43877832e-9)
    x * p

/-- probability.c:134-149 `zsl_prob_normal_cdf_inv`. -/
def probNormalCdfInv (m s p : R) : R :=
  if CReal.le p (lit 0) || CReal.ge p (lit 1) then einvalR
  else
    let x := lit 2 * p - lit 1
    m + s * CReal.sqrt (lit 2) * probErfInv x

/-- probability.c:151-166 `zsl_prob_factorial`. -/
def probFactorial (n : Int) : Out Int :=
  if n = 0 ∨ n = 1 then ok 1
  else if n < 0 then ok (-EINVAL)
  else forN (n.toNat - 1) (fun i' n2 => toInt (n2 * (n - ((i' : Int) + 1)))) n

/-- probability.c:168-187 `zsl_prob_binomial_coef`; `c` is the previous value of `*c`. -/
def probBinomialCoef (n k c : Int) : Out (Int × Int) :=
  if n < 0 then ok (-EINVAL, c)
  else if k > n ∨ k < 0 then ok (0, 0)
  else do
    let kn ← toInt (n - k)
    let fn ← probFactorial n
    let fk ← probFactorial k
    let fkn ← probFactorial kn
    let d ← toInt (fk * fkn)
    if d = 0 then ub
    else return (0, fn.tdiv d)

/-- The bounds check that the four functions of the binomial distribution share. probability.c:193-200, 212-219, 230-237, 248-255. -/
def binomBad (n : Int) (p : R) : Bool := CReal.gt p (lit 1) || CReal.lt p (lit 0) || decide (n < 0)

/-- probability.c:202-205 and 266-267: one value of the probability function; `c0` is the content of the uninitialised local `c`. -/
def binomTerm (c0 n : Int) (p : R) (x : Int) : Out R := do
  let (_, c) ← probBinomialCoef n x c0
  let e ← toInt (n - x)
  return CReal.ofInt c * CReal.pow p (CReal.ofInt x) * CReal.pow (lit 1 - p) (CReal.ofInt e)

/-- probability.c:189-206 `zsl_prob_binomial_pdf`. -/
def probBinomialPdf (c0 n : Int) (p : R) (x : Int) : Out R :=
  if binomBad n p then ok einvalR else binomTerm c0 n p x

/-- probability.c:208-224 `zsl_prob_binomial_mean`. -/
def probBinomialMean (n : Int) (p m : R) : Int × R :=
  if binomBad n p then (-EINVAL, m) else (0, CReal.ofInt n * p)

/-- probability.c:226-242 `zsl_prob_binomial_var`. -/
def probBinomialVar (n : Int) (p v : R) : Int × R :=
  if binomBad n p then (-EINVAL, v) else (0, CReal.ofInt n * p * (lit 1 - p))

/-- probability.c:244-272 `zsl_prob_binomial_cdf`. Simplification: the overflow of the loop counter for `x = INT_MAX` is not modelled. -/
def probBinomialCdf (c0 n : Int) (p : R) (x : Int) : Out R :=
  if binomBad n p then ok einvalR
  else if x < 0 then ok (lit 0)
  else do
    let (y, _) ← forN (x.toNat + 1) (fun i (s : R × Int) => do
      let (_, c) ← probBinomialCoef n i s.2
      let e ← toInt (n - i)
      return (s.1 + CReal.ofInt c * CReal.pow p (CReal.ofInt i) * CReal.pow (lit 1 - p) (CReal.ofInt e), c)) (lit 0, c0)
    return y

/-- probability.c:274-299 `zsl_prob_entropy`; `h` is the previous value of `*h`. -/
def probEntropy (v : Vec R) (h : R) : Out (Int × R) := do
  let c ← forRet v.sz (fun i sum => do
    let a ← rd v.data i
    if CReal.lt a (lit 0) then return Ctl.ret () else return Ctl.next (sum + a)) (lit (-1))
  match c with
  | .ret _ => return (-EINVAL, h)
  | .next sum =>
    if CReal.gt (CReal.abs sum) (lit 1e-6) then return (-EINVAL, h)
    else do
      let h ← forN v.sz (fun i h => do
        let a ← rd v.data i
        return h - a * CReal.log a) (lit 0)
      return (0, h / CReal.log (lit 2))

/-- probability.c:301-321 `zsl_prob_bayes`; `pab` is the previous value of `*pab`. -/
def probBayes (pa pb pba pab : R) : Int × R :=
  if CReal.lt pa (lit 0) || CReal.gt pa (lit 1) then (-EINVAL, pab)
  else if CReal.le pb (lit 0) || CReal.gt pb (lit 1) || CReal.lt pb (pa * pba) then (-EINVAL, pab)
  else if CReal.lt pba (lit 0) || CReal.gt pba (lit 1) then (-EINVAL, pab)
  else (0, (pba * pa) / pb)

end Verif
