import Verif.TestFunctions.Core

/-!
# The benchmark functions of src/test_functions/mod.rs, function by function

`f64::powi(a, n)` is `a ^ n`, `f64::powf(f64::consts::E, y)` and `f64::exp(y)` are `Real.exp y`,
other `powf` calls are `powf`.  A loop `for arg in x { acc += t(arg) }` is a `foldl` over the list;
`x.iter().enumerate()` is `x.zipIdx` (pairs of value and index); integer ranges are lists of
naturals.  Integer divisions such as `(16 / 15) as f64` are kept as integer divisions.  Not
modelled: the wrap-around of `as i32` casts of indices above `2^31`.
-/

set_option linter.unusedVariables false

namespace Ecrs.TF
open Ecrs Real

/-- src/test_functions/mod.rs:12-26 -/
noncomputable def ackley (x : List ℝ) : R := do
  require (x ≠ [])
  let temp1 := x.foldl (fun acc a => acc + a ^ 2) (0 : ℝ)
  let temp2 := x.foldl (fun acc a => acc + cos (2 * π * a)) (0 : ℝ)
  let temp1 := temp1 * (1 / x.length)
  let temp2 := temp2 * (1 / x.length)
  pure (-20 * exp (-0.2 * sqrt temp1) - exp temp2 + 20 + exp 1)

/-- src/test_functions/mod.rs:33-42 -/
noncomputable def ackley2 : List ℝ → R := fn2 fun x1 x2 => do
  let p ← powf (-200 * exp 1) (-0.02)
  pure (p * sqrt (x1 ^ 2 + x2 ^ 2))

/-- src/test_functions/mod.rs:49-63 -/
noncomputable def ackley3 : List ℝ → R := fn2 fun x1 x2 =>
  pure (200 * exp (-0.02 * sqrt (x1 ^ 2 + x2 ^ 2)) + 5 * exp (cos (3 * x1) + sin (3 * x2)))

/-- src/test_functions/mod.rs:72-81 -/
noncomputable def adijman : List ℝ → R := fn2 fun x1 x2 =>
  pure (cos x1 * sin x2 - x1 / (x2 ^ 2 + 1))

/-- src/test_functions/mod.rs:88-94 -/
noncomputable def alpine (x : List ℝ) : R :=
  pure (x.foldl (fun res arg => res + |arg * sin arg + arg / 10|) 0)

/-- src/test_functions/mod.rs:101-107 -/
noncomputable def alpine2 (x : List ℝ) : R :=
  forLoop x 0 fun res arg => do
    let s ← fsqrt arg
    pure (res * (s * sin arg))

/-- The data of src/test_functions/mod.rs:123-125. -/
def bradY : List ℚ :=
  [0.14, 0.18, 0.22, 0.25, 0.29, 0.32, 0.35, 0.39, 0.37, 0.58, 0.73, 0.96, 1.34, 2.10, 4.39]

/-- src/test_functions/mod.rs:114-134 (the loop reads `y[0]` in every round) -/
noncomputable def brad : List ℝ → R := fn3 fun x1 x2 x3 =>
  forLoop (List.range 15) 0 fun res i => do
    let y0 ← get bradY 0
    let q ← fdiv ((y0 : ℝ) - x1 - i) (((16 - i : ℕ) : ℝ) * x2 + min (i : ℝ) ((16 - i : ℕ) : ℝ) * x3)
    pure (res + q ^ 2)

/-- src/test_functions/mod.rs:141-150 (asserts three dimensions, uses two) -/
noncomputable def bartels_conn : List ℝ → R := fn3 fun x1 x2 _ =>
  pure (|x1 ^ 2 + x2 ^ 2 + x1 * x2| + |sin x1| + |cos x2|)

/-- src/test_functions/mod.rs:156-167 -/
noncomputable def beale : List ℝ → R := fn2 fun x1 x2 =>
  pure ((1.5 - x1 + x1 * x2) ^ 2 + (2.25 - x1 + x1 * x2 ^ 2) ^ 2 + (2.625 - x1 + x1 * x2 ^ 3) ^ 2)

/-- src/test_functions/mod.rs:174-193 -/
noncomputable def biggs_exp2 : List ℝ → R := fn2 fun x1 x2 =>
  pure ((List.range' 1 10).foldl (fun res (i : ℕ) => res +
    (exp (-0.1 * i * x1) - 5 * exp (-0.1 * i * x2) - exp (-0.1 * i) - 5 * exp i) ^ 2) 0)

/-- src/test_functions/mod.rs:200-221 -/
noncomputable def biggs_exp3 : List ℝ → R := fn3 fun x1 x2 x3 =>
  pure ((List.range' 1 10).foldl (fun res (i : ℕ) => res +
    (exp (-0.1 * i * x1) - x3 * exp (-0.1 * i * x2) - exp (-0.1 * i) - 5 * exp i) ^ 2) 0)

/-- src/test_functions/mod.rs:228-250 -/
noncomputable def biggs_exp4 : List ℝ → R := fn4 fun x1 x2 x3 x4 =>
  pure ((List.range' 1 10).foldl (fun res (i : ℕ) => res +
    (x3 * exp (-0.1 * i * x1) - x4 * exp (-0.1 * i * x2) - exp (-0.1 * i) - 5 * exp i) ^ 2) 0)

/-- src/test_functions/mod.rs:257-285 -/
noncomputable def biggs_exp5 : List ℝ → R := fn5 fun x1 x2 x3 x4 x5 =>
  pure ((List.range' 1 10).foldl (fun res (i : ℕ) => res +
    (x3 * exp (-0.1 * i * x1) - x4 * exp (-0.1 * i * x2) - exp (-0.1 * i)
      - 5 * exp (i + 3 * exp (-0.1 * x5)) + 3 * exp (-0.4 * i)) ^ 2) 0)

/-- src/test_functions/mod.rs:292-321 -/
noncomputable def biggs_exp6 : List ℝ → R := fn6 fun x1 x2 x3 x4 x5 x6 =>
  pure ((List.range' 1 11).foldl (fun res (i : ℕ) => res +
    (x3 * exp (-0.1 * i * x1) - x4 * exp (-0.1 * i * x2) - exp (-0.1 * i)
      - 5 * exp (i + x6 * exp (-0.1 * x5)) + 3 * exp (-0.4 * i)) ^ 2) 0)

/-- src/test_functions/mod.rs:328-339 -/
noncomputable def bird : List ℝ → R := fn2 fun x1 x2 =>
  pure (sin x1 * exp ((1 - cos x2) ^ 2) + cos x2 * exp ((1 - sin x1) ^ 2) + (x1 - x2) ^ 2)

/-- src/test_functions/mod.rs:346-358 -/
noncomputable def bohachevsky_n1 : List ℝ → R := fn2 fun x1 x2 =>
  pure (x1 ^ 2 + 2 * x2 ^ 2 - 0.3 * cos (3 * π * x1) - 0.4 * cos (4 * π * x2) + 0.7)

/-- src/test_functions/mod.rs:366-377 -/
noncomputable def bohachevsky_n2 : List ℝ → R := fn2 fun x1 x2 =>
  pure (x1 ^ 2 + 2 * x2 ^ 2 - 0.3 * cos (3 * π * x1) * cos (4 * π * x2) + 0.3)

/-- src/test_functions/mod.rs:385-396 -/
noncomputable def bohachevsky_n3 : List ℝ → R := fn2 fun x1 x2 =>
  pure (x1 ^ 2 + 2 * x2 ^ 2 - 0.3 * cos (3 * π * x1 + 4 * π * x2) + 0.3)

/-- src/test_functions/mod.rs:402-411 -/
noncomputable def booth : List ℝ → R := fn2 fun x1 x2 =>
  pure ((x1 + 2 * x2 - 7) ^ 2 + (2 * x1 + x2 - 5) ^ 2)

/-- src/test_functions/mod.rs:418-440 -/
noncomputable def box_betts : List ℝ → R := fn3 fun x1 x2 x3 =>
  pure ((List.range 3).foldl (fun res (i : ℕ) => res +
    (exp (-0.1 * ((i + 1 : ℕ) : ℝ) * x1) + exp (-0.1 * ((i + 1 : ℕ) : ℝ) * x2)
      + exp (x3 * (-0.1 * i) - exp (-1 * ((i + 1 : ℕ) : ℝ)))) ^ 2) 0)

/-- src/test_functions/mod.rs:445-454 -/
noncomputable def branin (x : List ℝ) (a b c r s t : ℝ) : R :=
  fn2 (fun x1 x2 => pure (a * (x2 - b * x1 ^ 2 + c * x1 - r) ^ 2 + s * (1 - t) * cos x1 + s)) x

/-- src/test_functions/mod.rs:461-475 -/
noncomputable def branin_rcos : List ℝ → R := fn2 fun x1 x2 =>
  pure ((x2 - 5.1 * x1 ^ 2 / 4 * π ^ 2 + 5 * x1 / π - 6) ^ 2 + 10 * (1 - 1 / 8 * π) * cos x1 + 10)

/-- src/test_functions/mod.rs:482-500 -/
noncomputable def branin_rcos2 : List ℝ → R := fn2 fun x1 x2 =>
  pure ((x2 - 5.1 * x1 ^ 2 / 4 * π ^ 2 + 5 * x1 / π - 6) ^ 2
    + 10 * (1 - 1 / 8 * π) * cos x1 * cos x2 * log (x1 ^ 2 + x2 ^ 2 + 1) + 10)

/-- src/test_functions/mod.rs:506-521 -/
noncomputable def branin_default : List ℝ → R := fn2 fun x1 x2 =>
  let a : ℝ := 1
  let b : ℝ := 5.1 / 4 * π ^ 2
  let c : ℝ := 5 / π
  let r : ℝ := 6
  let s : ℝ := 10
  let t : ℝ := 1 / 8 * π
  pure (a * (x2 - b * x1 ^ 2 + c * x1 - r) ^ 2 + s * (1 - t) * cos x1 + s)

/-- src/test_functions/mod.rs:528-539 -/
noncomputable def brent : List ℝ → R := fn2 fun x1 x2 =>
  pure ((x1 + 10) ^ 2 + (x2 + 10) ^ 2 + exp (-1 * x1 ^ 2 - x2 ^ 2))

/-- src/test_functions/mod.rs:546-553 -/
noncomputable def brown (x : List ℝ) : R := do
  let n ← usub x.length 1
  forLoop (List.range n) 0 fun res i => do
    let a ← get x i
    let b ← get x (i + 1)
    let u ← powf (a ^ 2) (b ^ 2 + 1)
    let v ← powf (b ^ 2) (a ^ 2 + 1)
    pure (res + (u + v))

/-- src/test_functions/mod.rs:560-569 (the first summand is not squared) -/
noncomputable def bukin_2 : List ℝ → R := fn2 fun x1 x2 =>
  pure (100 * (x2 - 0.01 * x1 ^ 2 + 1) + 0.01 * (x1 + 10) ^ 2)

/-- src/test_functions/mod.rs:576-585 -/
noncomputable def bukin_4 : List ℝ → R := fn2 fun x1 x2 =>
  pure (100 * x2 ^ 2 + 0.01 * |x1 + 10|)

/-- src/test_functions/mod.rs:591-600 -/
noncomputable def bukin_n6 : List ℝ → R := fn2 fun x1 x2 =>
  pure (100 * sqrt |x2 - 0.01 * x1 ^ 2| + 0.01 * |x1 + 10|)

/-- src/test_functions/mod.rs:606-615 -/
noncomputable def three_hump_camel : List ℝ → R := fn2 fun x1 x2 =>
  pure (2 * x1 ^ 2 + -1.05 * x1 ^ 4 + x1 ^ 6 / 6 + x1 * x2 + x2 ^ 2)

/-- src/test_functions/mod.rs:622-633 -/
noncomputable def six_hump_camel : List ℝ → R := fn2 fun x1 x2 =>
  pure ((4 - 2.1 * x1 ^ 2 + x1 ^ 3 / 3) * x1 ^ 2 + x1 * x2 + (-4 + 4 * x2 ^ 2) * x2 ^ 2)

/-- src/test_functions/mod.rs:640-650 -/
noncomputable def chen_bird : List ℝ → R := fn2 fun x1 x2 =>
  pure (-0.001 / (0.001 * 0.001 + (x1 - 0.4 * x2 + 0.1) ^ 2)
    - 0.001 / (0.001 * 0.001 + (2 * x1 + x2 - 1.5) ^ 2))

/-- src/test_functions/mod.rs:657-668 -/
noncomputable def chen_v : List ℝ → R := fn2 fun x1 x2 =>
  pure (-0.001 / (0.001 * 0.001 + (x1 ^ 2 + x2 ^ 2 - 1) ^ 2)
    - 0.001 / (0.001 * 0.001 + (x1 ^ 2 + x2 ^ 2 - 0.5) ^ 2)
    - 0.001 / (0.001 * 0.001 + (x1 ^ 2 - x2 ^ 2) ^ 2))

/-- src/test_functions/mod.rs:675-688 -/
noncomputable def chichinadze : List ℝ → R := fn2 fun x1 x2 =>
  pure (x1 ^ 2 - 12 * x1 + 11 + 10 * cos (π * x1 / 2) + 8 * sin (5 * π * x1 / 2)
    - (0.2 : ℝ) ^ (0.5 : ℝ) * exp (-0.5 * (x2 - 0.5) ^ 2))

/-- src/test_functions/mod.rs:694-700 -/
noncomputable def chung_reynolds (x : List ℝ) : R :=
  let res := x.foldl (fun res arg => res + arg ^ 2) (0 : ℝ)
  pure (res ^ 2)

/-- src/test_functions/mod.rs:708-724 -/
noncomputable def colville : List ℝ → R := fn4 fun x1 x2 x3 x4 =>
  pure (100 * (x1 ^ 2 - x2) ^ 2 + (x1 - 1) ^ 2 + (x3 - 1) ^ 2 + 90 * (x3 ^ 2 - x4) ^ 2
    + 10.1 * ((x2 - 1) ^ 2 + (x4 - 1) ^ 2) + 19.8 * (x2 - 1) * (x4 - 1))

/-- src/test_functions/mod.rs:732-740 -/
noncomputable def cosine_mixture (x : List ℝ) : R :=
  let sum1 := x.foldl (fun acc arg => acc + cos (5 * π * arg)) (0 : ℝ)
  let sum2 := x.foldl (fun acc arg => acc + arg ^ 2) (0 : ℝ)
  pure (-0.1 * sum1 - sum2)

/-- src/test_functions/mod.rs:749-768 -/
noncomputable def cross_in_tray : List ℝ → R := fn2 fun x1 x2 =>
  pure (-0.0001 * (|sin x1 * sin x2 * exp (abs (100 - sqrt (x1 ^ 2 + x2 ^ 2) / π))| + 1) ^ (0.1 : ℝ))

/-- src/test_functions/mod.rs:774-780 -/
noncomputable def csendes (x : List ℝ) : R :=
  forLoop x 0 fun res arg => do
    let q ← fdiv 1 arg
    pure (res + arg ^ 6 * (2 + sin q))

/-- src/test_functions/mod.rs:787-796 -/
noncomputable def cube : List ℝ → R := fn2 fun x1 x2 =>
  pure (100 * (x2 - x1 ^ 3) ^ 2 + (1 - x1) ^ 2)

/-- src/test_functions/mod.rs:803-820 -/
noncomputable def damavandi : List ℝ → R := fn2 fun x1 x2 =>
  pure ((1 - (sin (π * (x1 - 2)) * sin (π * (x2 - 2)) / π ^ 2 * (x1 - 2) * (x2 - 2)) ^ 5)
    * (2 + (x1 - 7) ^ 2 + 2 * (x2 - 7) ^ 2))

/-- src/test_functions/mod.rs:826-832 -/
noncomputable def deb1 (x : List ℝ) : R := do
  let res := x.foldl (fun res arg => res + sin (5 * π * arg) ^ 6) (0 : ℝ)
  let n ← usub x.length 1
  let q ← fdiv (-1) n
  pure (q * res)

/-- src/test_functions/mod.rs:838-847 -/
noncomputable def deb3 (x : List ℝ) : R := do
  let res ← forLoop x 0 fun res arg => do
    let p ← powf arg 0.75
    pure (res + sin (5 * π * (p - 0.05)) ^ 6)
  let n ← usub x.length 1
  let q ← fdiv (-1) n
  pure (q * res)

/-- src/test_functions/mod.rs:854-864 (`1 / 100000` is an integer division) -/
noncomputable def deckkers_aarts : List ℝ → R := fn2 fun x1 x2 =>
  pure (100000 * x1 ^ 2 + x2 ^ 2 - (x1 ^ 2 + x2 ^ 2) ^ 2
    + ((1 / 100000 : ℕ) : ℝ) * (x1 ^ 2 + x2 ^ 2) ^ 4)

/-- src/test_functions/mod.rs:871-894 (asserts two dimensions, reads four) -/
noncomputable def devilliers_glasser1 (x : List ℝ) : R := do
  require (x.length = 2)
  let x1 ← get x 0
  let x2 ← get x 1
  let x3 ← get x 2
  let x4 ← get x 3
  forLoop (List.range' 1 24) 0 fun res (i : ℕ) => do
    let p ← powf x2 (0.1 * ((i - 1 : ℕ) : ℝ))
    pure (res + (x1 * p * sin (x3 * 0.1 * ((i - 1 : ℕ) : ℝ) + x4)
      - 60.137 * (1.371 : ℝ) ^ (0.1 * ((i - 1 : ℕ) : ℝ) * sin (3.112 * 0.1 * ((i - 1 : ℕ) : ℝ) + 1.761))) ^ 2)

/-- src/test_functions/mod.rs:901-926 -/
noncomputable def devilliers_glasser2 : List ℝ → R := fn5 fun x1 x2 x3 x4 x5 =>
  forLoop (List.range' 1 24) 0 fun res (i : ℕ) => do
    let p ← powf x2 (0.1 * ((i - 1 : ℕ) : ℝ))
    pure (res + (x1 * p * tanh (x3 * 0.1 * ((i - 1 : ℕ) : ℝ) + sin (x4 * 0.1 * ((i - 1 : ℕ) : ℝ)))
        * cos (0.1 * ((i - 1 : ℕ) : ℝ) * exp x5)
      - 53.81 * (1.27 : ℝ) ^ (0.1 * ((i - 1 : ℕ) : ℝ))
        * tanh (3.012 * 0.1 * ((i - 1 : ℕ) : ℝ) + sin (2.13 * 0.1 * ((i - 1 : ℕ) : ℝ)))
        * cos (exp 0.507 * 0.1 * ((i - 1 : ℕ) : ℝ))) ^ 2)

/-- src/test_functions/mod.rs:932-942 -/
noncomputable def dixon_price (x : List ℝ) : R := do
  require (x.length ≥ 2)
  let x0 ← get x 0
  forLoop (List.range' 1 (x.length - 1)) ((x0 - 1) ^ 2) fun result i => do
    let a ← get x i
    let b ← get x (i - 1)
    pure (result + (i : ℝ) * (2 * a ^ 2 - b) ^ 2)

/-- The table `a` of src/test_functions/mod.rs:956-964: five copies of `[-32, -16, 16, 32]` (20
entries), and five copies each of `-32, -16, 0, 16, 32` (25 entries). -/
def deJongTable : List (List ℤ) :=
  [(List.replicate 5 [-32, -16, 16, 32]).flatten,
   ([-32, -16, 0, 16, 32].map fun i => List.replicate 5 i).flatten]

/-- src/test_functions/mod.rs:947-969 -/
noncomputable def de_jong_n5 : List ℝ → R := fn2 fun x1 x2 => do
  let sum ← forLoop (List.range' 1 25) 0 fun sum i => do
    let a0 ← get deJongTable 0
    let u ← get a0 i
    let a1 ← get deJongTable 1
    let v ← get a1 i
    pure (sum + (1 / (i : ℝ) + (x1 - u) ^ 6 + (x2 - v) ^ 6))
  powf (0.002 + sum) (-1)

/-- src/test_functions/mod.rs:976-990 -/
noncomputable def dolan : List ℝ → R := fn5 fun x1 x2 x3 x4 x5 =>
  pure ((x1 + 1.7 * x2) * sin x1 - 1.5 * x3 - 0.1 * x4 * cos (x4 + x5 - x1) + 0.2 * x5 ^ 2 - x2 - 1)

/-- src/test_functions/mod.rs:997-1007 -/
noncomputable def drop_wave : List ℝ → R := fn2 fun x1 x2 =>
  pure (-1 * (1 + cos (12 * sqrt (x1 ^ 2 + x2 ^ 2))) / (0.5 * (x1 ^ 2 + x2 ^ 2) + 2))

/-- src/test_functions/mod.rs:1013-1024 -/
noncomputable def easom : List ℝ → R := fn2 fun x1 x2 =>
  pure (-1 * cos x1 * cos x2 * exp (-1 * ((x1 - π) ^ 2 + (x2 - π) ^ 2)))

/-- src/test_functions/mod.rs:1031-1042 -/
noncomputable def eavd : List ℝ → R := fn2 fun x1 x2 =>
  pure ((x1 ^ 2 + x2 - 10) ^ 2 + (x1 + x2 ^ 2 - 7) ^ 2 + (x1 ^ 2 + x2 ^ 3 - 1) ^ 2)

/-- src/test_functions/mod.rs:1049-1058 -/
noncomputable def egg_crate : List ℝ → R := fn2 fun x1 x2 =>
  pure (x1 ^ 2 + x2 ^ 2 + 25 * (sin x1 ^ 2 + sin x2 ^ 2))

/-- src/test_functions/mod.rs:1064-1074 -/
noncomputable def eggholder : List ℝ → R := fn2 fun x1 x2 =>
  pure (-1 * (x2 + 47) * sin (sqrt |x1 / 2 + x2 + 47|) + -1 * x1 * sin (sqrt |x1 - x2 - 47|))

/-- src/test_functions/mod.rs:1080-1086 -/
noncomputable def exponential (x : List ℝ) : R :=
  let res := x.foldl (fun res arg => res + arg ^ 2) (0 : ℝ)
  pure (-1 * exp (-0.5 * res))

/-- src/test_functions/mod.rs:1093-1112 (`-i / 10` is an integer division, rounding to zero) -/
noncomputable def exp2 : List ℝ → R := fn2 fun x1 x2 =>
  pure ((List.range' 1 9).foldl (fun res (i : ℕ) => res +
    (exp (-1 * i * x1 / 10) - 5 * exp (-1 * i * x2 / 10) - exp 1 ^ (Int.tdiv (-(i : ℤ)) 10)
      + 5 * exp 1 ^ (-(i : ℤ))) ^ 2) 0)

/-- src/test_functions/mod.rs:1118-1125 -/
noncomputable def forrester_et_al (x : ℝ) : ℝ := (6 * x - 2) ^ 2 * sin (12 * x - 4)

/-- src/test_functions/mod.rs:1132-1142 -/
noncomputable def freudenstein_roth : List ℝ → R := fn2 fun x1 x2 =>
  pure ((x1 - 13 + ((5 - x2) * x2 - 2) * x2) ^ 2 + (x1 - 29 + ((x2 + 1) * x2 - 14) * x2) ^ 2)

/-- src/test_functions/mod.rs:1149-1162 (`16 / 15` is an integer division) -/
noncomputable def giunta (x : List ℝ) : R := do
  require (x.length = 2)
  pure (x.foldl (fun res arg => res + (sin (((16 / 15 : ℕ) : ℝ) * arg - 1)
    + (((16 / 15 : ℕ) : ℝ) * arg - 1) ^ 2 + 0.02 * sin (4 * (((16 / 15 : ℕ) : ℝ) * arg - 1)))) 0)

/-- src/test_functions/mod.rs:1168-1182 -/
noncomputable def goldstein_price : List ℝ → R := fn2 fun x1 x2 =>
  pure ((1 + (x1 + x2 + 1) ^ 2
      * (19 - 14 * x1 + 3 * x1 ^ 2 - 14 * x2 + 6 * x1 * x2 + 3 * x2 ^ 2))
    * (30 + (2 * x1 - 3 * x2) ^ 2
      * (18 - 32 * x1 + 12 * x1 ^ 2 + 48 * x2 - 36 * x1 * x2 + 27 * x2 ^ 2)))

/-- src/test_functions/mod.rs:1187-1194 -/
noncomputable def gramacy_lee (x : ℝ) : ℝ := sin (10 * π * x) / 2 * x + (x - 1) ^ 4

/-- src/test_functions/mod.rs:1200-1212 -/
noncomputable def griewank (x : List ℝ) : R := do
  require (x ≠ [])
  let temp1 := x.zipIdx.foldl (fun acc p => acc + p.1 ^ 2 / 4000) (0 : ℝ)
  let temp2 := x.zipIdx.foldl (fun acc p => acc * cos (p.1 / sqrt ((p.2 + 1 : ℕ) : ℝ))) (1 : ℝ)
  pure (temp1 - temp2 + 1)

/-- The arrays of src/test_functions/mod.rs:1255-1267. -/
def hartmannAlpha : List ℚ := [1.0, 1.2, 3.0, 3.2]
def hartmann3A : List (List ℚ) := [[3, 10, 30], [0.1, 10, 35], [3, 10, 30], [0.1, 10, 35]]
def hartmann3P : List (List ℚ) :=
  [[3.689, 1.17, 2.673], [4.699, 4.387, 7.47], [1.091, 8.732, 5.547], [0.381, 5.743, 8.828]]
/-- src/test_functions/mod.rs:1289-1294, 1324-1329 -/
def hartmann6A : List (List ℚ) :=
  [[10, 3, 17, 3.5, 1.7, 8], [0.05, 10, 17, 0.1, 8, 14], [3, 3.5, 1.7, 10, 17, 8],
   [17, 8, 0.05, 10, 0.1, 14]]
/-- src/test_functions/mod.rs:1295-1300 -/
def hartmann4P : List (List ℚ) :=
  [[1.312, 1.696, 5.569, 1.24, 8.283, 5.886], [2.329, 4.135, 8.307, 3.736, 1.004, 9.991],
   [2.348, 1.451, 3.522, 2.883, 3.047, 6.650], [4.047, 8.828, 8.732, 5.743, 1.091, 3.81]]
/-- src/test_functions/mod.rs:1330-1335 -/
def hartmann6P : List (List ℚ) :=
  [[1.312, 1.696, 5.569, 1.24, 8.283, 5.886], [2.329, 4.135, 8.307, 3.736, 1.004, 9.991],
   [2.348, 1.451, 0.522, 2.883, 3.047, 6.650], [4.047, 8.828, 8.732, 5.743, 1.091, 3.81]]

/-- The inner loop `for (j, _) in x.iter().enumerate() { sum += a[i][j] * (x[j] - p[i][j])² }` of
the three Hartmann functions, src/test_functions/mod.rs:1270-1273, 1303-1306, 1338-1341. -/
noncomputable def hartmannInner (a p : List (List ℚ)) (x : List ℝ) (i : ℕ) : R :=
  forLoop (List.range x.length) 0 fun sum j => do
    let ar ← get a i
    let av ← get ar j
    let xj ← get x j
    let pr ← get p i
    let pv ← get pr j
    pure (sum + (av : ℝ) * (xj - pv) ^ 2)

/-- src/test_functions/mod.rs:1249-1277 (the rows `1..5` of four-row tables) -/
noncomputable def hartmann_3d (x : List ℝ) : R := do
  require (x.length = 3)
  forLoop (List.range' 1 4) 0 fun res i => do
    let sum ← hartmannInner hartmann3A hartmann3P x i
    let al ← get hartmannAlpha i
    pure (res - (al : ℝ) * exp (-1 * sum))

/-- src/test_functions/mod.rs:1282-1310 -/
noncomputable def hartmann_4d (x : List ℝ) : R := do
  require (x.length = 4)
  let sum ← forLoop (List.range' 1 4) 0 fun sum i => do
    let inner ← hartmannInner hartmann6A hartmann4P x i
    let al ← get hartmannAlpha i
    pure (sum + (al : ℝ) * exp (-inner))
  pure ((1 / 0.839) * (1.1 - sum))

/-- src/test_functions/mod.rs:1317-1345 -/
noncomputable def hartmann_6d (x : List ℝ) : R := do
  require (x.length = 6)
  let sum ← forLoop (List.range' 1 4) 0 fun sum i => do
    let inner ← hartmannInner hartmann6A hartmann6P x i
    let al ← get hartmannAlpha i
    pure (sum + (al : ℝ) * exp (-1 * inner))
  pure (-1 * sum)

/-- src/test_functions/mod.rs:1356-1365 -/
noncomputable def himmelblau : List ℝ → R := fn2 fun x1 x2 =>
  pure ((x1 ^ 2 + x2 - 11) ^ 2 + (x1 + x2 ^ 2 - 7) ^ 2)

/-- src/test_functions/mod.rs:1374-1389 -/
noncomputable def holder_table : List ℝ → R := fn2 fun x1 x2 =>
  pure (-1 * |sin x1 * cos x2 * exp (abs (1 - sqrt (x1 ^ 2 + x2 ^ 2) / π))|)

/-- src/test_functions/mod.rs:1396-1411 -/
noncomputable def holder_table2 : List ℝ → R := fn2 fun x1 x2 =>
  pure (-1 * |cos x1 * cos x2 * exp (abs (1 - sqrt (x1 ^ 2 + x2 ^ 2) / π))|)

/-- src/test_functions/mod.rs:1418-1435 -/
noncomputable def holder_table3 : List ℝ → R := fn2 fun x1 x2 =>
  pure (-1 * |cos x1 * cos x2 * exp (abs ((1 - sqrt (x1 ^ 2 + x2 ^ 2) / π) ^ 2)) / 30|)

/-- src/test_functions/mod.rs:1442-1454 -/
noncomputable def hosaki : List ℝ → R := fn2 fun x1 x2 =>
  pure ((1 - 8 * x1 + 7 * x1 ^ 2 - 7 / 3 * x1 ^ 3 + 0.25 * x1 ^ 4) * x2 ^ 2 * exp (-1 * x2))

/-- src/test_functions/mod.rs:1461-1478 -/
noncomputable def jennrich_sampson : List ℝ → R := fn2 fun x1 x2 =>
  pure ((List.range' 1 10).foldl (fun res (i : ℕ) => res +
    (2 + 2 * (i : ℝ) - (exp (i * x1) + exp (i * x2))) ^ 2) 0)

/-- src/test_functions/mod.rs:1485-1495 (`m` is an `i32`; a negative `m` gives no round, as `0`) -/
noncomputable def langermann (x : List ℝ) (m : ℕ) (c : List ℝ) (a : List (List ℝ)) : R :=
  forLoop (List.range' 1 m) 0 fun res i => do
    let inner ← forLoop (List.range x.length) 0 fun inner j => do
      let xj ← get x j
      let ar ← get a i
      let av ← get ar j
      pure (inner + (xj - av) ^ 2)
    let ci ← get c i
    let q ← fdiv (-1 * π) inner
    pure (res + ci * exp q * cos (π * inner))

/-- src/test_functions/mod.rs:1503-1517 -/
noncomputable def levy (x : List ℝ) : R := do
  require (x ≠ [])
  let x0 ← get x 0
  let result := sin (π * (1 + (x0 - 1) / 4)) ^ 2
  let n ← usub x.length 1
  let result := (x.take n).foldl (fun result xi =>
    let temp := 1 + (xi - 1) / 4
    result + (temp - 1) ^ 2 * (1 + 10 * sin (π * temp + 1) ^ 2)) result
  let xl ← get x n
  let temp := 1 + (xl - 1) / 4
  pure (result + (temp - 1) ^ 2 * (1 + sin (2 * π * temp) ^ 2))

/-- src/test_functions/mod.rs:1523-1534 -/
noncomputable def levy_n13 : List ℝ → R := fn2 fun x1 x2 =>
  pure (sin (3 * π * x1) ^ 2 + (x1 - 1) ^ 2 * (1 + sin (3 * π * x2) ^ 2)
    + (x2 - 1) ^ 2 * (1 + sin (2 * π * x2) ^ 2))

/-- src/test_functions/mod.rs:1541-1551 -/
noncomputable def keane : List ℝ → R := fn2 fun x1 x2 =>
  fdiv (sin (x1 - x2) ^ 2 * sin (x1 + x2) ^ 2) (sqrt (x1 ^ 2 + x2 ^ 2))

/-- src/test_functions/mod.rs:1558-1567 -/
noncomputable def leon : List ℝ → R := fn2 fun x1 x2 =>
  pure (100 * (x2 - x1 ^ 2) ^ 2 + (1 - x1) ^ 2)

/-- src/test_functions/mod.rs:1573-1582 -/
noncomputable def matyas : List ℝ → R := fn2 fun x1 x2 =>
  pure (0.26 * (x1 ^ 2 + x2 ^ 2) + -0.48 * x1 * x2)

/-- src/test_functions/mod.rs:1588-1597 -/
noncomputable def mcormick : List ℝ → R := fn2 fun x1 x2 =>
  pure (sin (x1 + x2) + (x1 - x2) ^ 2 + -1.5 * x1 + 2.5 * x2 + 1)

/-- src/test_functions/mod.rs:1604-1618 -/
noncomputable def michalewicz (x : List ℝ) : R := do
  require (x ≠ [])
  pure (x.zipIdx.foldl (fun result p =>
    result - sin p.1 * sin (((p.2 + 1 : ℕ) : ℝ) * p.1 ^ 2 / π) ^ 20) 0)

/-- src/test_functions/mod.rs:1625-1639 -/
noncomputable def miele_cantrell : List ℝ → R := fn4 fun x1 x2 x3 x4 =>
  pure ((exp (-1 * x1) - x2) ^ 4 + 100 * (x2 - x3) ^ 6 + tan (x3 - x4) ^ 4 + x1 ^ 8)

/-- src/test_functions/mod.rs:1646-1655 -/
noncomputable def parsopoulos : List ℝ → R := fn2 fun x1 x2 =>
  pure (cos x1 ^ 2 + sin x2 ^ 2)

/-- src/test_functions/mod.rs:1662-1684 (`powi(_, -1)` is a division) -/
noncomputable def pen_holder : List ℝ → R := fn2 fun x1 x2 => do
  let q ← fdiv 1 |cos x1 * cos x2 * exp (abs (1 - (x1 ^ 2 + x2 ^ 2) ^ (0.5 / π)))|
  pure (-1 * exp q)

/-- src/test_functions/mod.rs:1690-1706 -/
noncomputable def pathological (x : List ℝ) : R := do
  let hi ← usub x.length 2
  forLoop (List.range' 1 (hi - 1)) 0 fun res i => do
    let a ← get x i
    let b ← get x (i + 1)
    pure (res + (0.5 + (sin (sqrt (100 * a ^ 2 + b ^ 2)) ^ 2 - 0.5)
      / (1 + 0.001 * (a ^ 2 - 2 * a * b + b ^ 2) ^ 2)))

/-- src/test_functions/mod.rs:1712-1726 (the product `sum` starts at `0`) -/
noncomputable def paviani (x : List ℝ) : R := do
  require (x.length = 10)
  let res ← forLoop x 0 fun res arg => do
    let u ← fln (arg - 2)
    let v ← fln (10 - arg)
    pure (res + (u ^ 2 + v ^ 2))
  let sum := x.foldl (fun sum arg => sum * arg) (0 : ℝ)
  let q ← powf sum 0.2
  pure (res - q)

/-- src/test_functions/mod.rs:1732-1750 -/
noncomputable def pinter (x : List ℝ) : R :=
  forLoop x.zipIdx 0 fun res p => do
    let i := p.2
    let val := p.1
    let im ← usub i 1
    let xm ← get x im
    let xp ← get x (i + 1)
    let l ← fln (1 + (i : ℝ) * (xm ^ 2 - 2 * val - 3 * xm - cos val + 1) ^ 2)
    pure (res + ((i : ℝ) * val ^ 2 + 20 * (i : ℝ) * sin (xm * sin val + sin xp) ^ 2
      + (i : ℝ) * (l / log 10)))

/-- src/test_functions/mod.rs:1756-1766 -/
noncomputable def periodic : List ℝ → R := fn2 fun x1 x2 =>
  pure (1 + sin x1 ^ 2 + sin x2 ^ 2 - 0.1 * exp (-1 * (x1 ^ 2 + x2 ^ 2)))

/-- src/test_functions/mod.rs:1772-1788 -/
noncomputable def perm_0_d_beta (x : List ℝ) (beta : ℝ) : R := do
  require (x.length = 2)
  forLoop (List.range' 1 x.length) 0 fun res i => do
    let sum ← forLoop (List.range x.length) 0 fun sum j => do
      let xj ← get x j
      let q ← fdiv 1 ((j : ℝ) ^ i)
      pure (sum + (((j : ℝ) + beta) * xj ^ i - q))
    pure (res + sum ^ 2)

/-- src/test_functions/mod.rs:1795-1806 -/
noncomputable def perm_d_beta (x : List ℝ) (beta : ℝ) : R :=
  forLoop (List.range' 1 x.length) 0 fun res i => do
    let sum ← forLoop (List.range x.length) 0 fun sum j => do
      let xj ← get x j
      let q ← fdiv xj j
      pure (sum + ((j : ℝ) ^ i + beta) * (q ^ i - 1))
    pure (res + sum ^ 2)

/-- src/test_functions/mod.rs:1813-1827 -/
noncomputable def powell (x : List ℝ) : R := do
  require (x.length > 3)
  let d := x.length / 4
  forLoop (List.range' 1 d) 0 fun res i => do
    let a ← get x (4 * i - 3)
    let b ← get x (4 * i - 2)
    let c ← get x (4 * i - 1)
    let e ← get x (4 * i)
    pure (res + ((a + 10 * b) ^ 2 + 5 * (c - e) ^ 2 + (b - 2 * c) ^ 4 + 10 * (a - e) ^ 4))

/-- src/test_functions/mod.rs:1834-1847 -/
noncomputable def powell2 (x : List ℝ) : R := do
  require (x.length > 3)
  let hi ← usub x.length 3
  forLoop (List.range' 1 (hi - 1)) 0 fun res i => do
    let a ← get x (i - 1)
    let b ← get x i
    let c ← get x (i + 1)
    let e ← get x (i + 2)
    pure (res + ((a + 10 * b) ^ 2 + 5 * (c - e) ^ 2 + (b - 2 * c) ^ 4 + 1 * (a - e) ^ 4))

/-- src/test_functions/mod.rs:1854-1860 -/
noncomputable def powell_sum (x : List ℝ) : R :=
  pure (x.zipIdx.foldl (fun res p => res + |p.1| ^ (p.2 + 1)) 0)

/-- src/test_functions/mod.rs:1867-1882 -/
noncomputable def power_sum (x b : List ℝ) : R := do
  require (b.length = x.length)
  pure (b.zipIdx.foldl (fun res p =>
    res + ((x.foldl (fun sum j => sum + j ^ p.2) 0) - p.1) ^ 2) 0)

/-- src/test_functions/mod.rs:1888-1897 -/
noncomputable def price1 : List ℝ → R := fn2 fun x1 x2 =>
  pure ((|x1| - 5) ^ 2 + (|x2| - 5) ^ 2)

/-- src/test_functions/mod.rs:1903-1913 -/
noncomputable def price2 : List ℝ → R := fn2 fun x1 x2 =>
  pure (1 + sin x1 ^ 2 + sin x2 ^ 2 - 0.1 * exp (-1 * x1 ^ 2 - x2 ^ 2))

/-- src/test_functions/mod.rs:1919-1929 -/
noncomputable def price3 : List ℝ → R := fn2 fun x1 x2 =>
  pure (100 * (x2 - x1 ^ 2) ^ 2 + 6 * (6.4 * (x2 - 0.5) ^ 2 - x1 - 0.6) ^ 2)

/-- src/test_functions/mod.rs:1935-1945 -/
noncomputable def price4 : List ℝ → R := fn2 fun x1 x2 =>
  pure ((2 * x1 ^ 3 * x2 - x2 ^ 3) ^ 2 + (6 * x1 - x2 ^ 2 + x2) ^ 2)

/-- src/test_functions/mod.rs:1951-1957 -/
noncomputable def qing (x : List ℝ) (i : ℝ) : R :=
  pure (x.foldl (fun res arg => res + (arg ^ 2 - i) ^ 2) 0)

/-- src/test_functions/mod.rs:1963-1975 -/
noncomputable def quadratic : List ℝ → R := fn2 fun x1 x2 =>
  pure (-3803.84 - 138.08 * x1 - 232.92 * x2 + 128.08 * x1 ^ 2 + 23.64 * x2 ^ 2 + 182.25 * x1 * x2)

/-- src/test_functions/mod.rs:1993-2005 -/
noncomputable def quintic (x : List ℝ) : R :=
  pure (x.foldl (fun res arg =>
    res + |arg ^ 5 - 3 * arg ^ 4 + 4 * arg ^ 3 + 2 * arg ^ 2 - 10 * arg - 4|) 0)

/-- src/test_functions/mod.rs:2010-2018 -/
noncomputable def rana (x : List ℝ) : R :=
  forLoop x.zipIdx 0 fun res p => do
    let xn ← get x (p.2 + 1)
    let t1 := sqrt |xn + p.1 + 1|
    let t2 := sqrt |xn - p.1 + 1|
    pure (res + ((xn + 1) * cos t2 * sin t1 + p.1 * cos t1 * sin t2))

/-- src/test_functions/mod.rs:2024-2035 -/
noncomputable def rastrigin (x : List ℝ) : R := do
  require (x ≠ [])
  let result := x.foldl (fun acc a => acc + (a ^ 2 - 10 * cos (2 * π * a))) (0 : ℝ)
  pure (result + 10 * x.length)

/-- src/test_functions/mod.rs:2040-2057 -/
noncomputable def ripple1 (x : List ℝ) : R := do
  require (x.length = 2)
  forLoop x 0 fun res arg => do
    let l ← fln (2 * ((arg - 1) / 0.8) ^ 2)
    pure (res + -1 * exp (-2 * l) * (sin (5 * π * arg) ^ 6 + 0.1 * cos (500 * π * arg) ^ 2))

/-- src/test_functions/mod.rs:2062-2078 -/
noncomputable def ripple25 (x : List ℝ) : R := do
  require (x.length = 2)
  forLoop x 0 fun res arg => do
    let l ← fln (2 * ((arg - 1) / 0.8) ^ 2)
    pure (res + -1 * exp (-2 * l) * sin (5 * π * arg) ^ 6)

/-- src/test_functions/mod.rs:2085-2095 -/
noncomputable def rosenbrock (x : List ℝ) : R := do
  require (x.length ≥ 2)
  let n ← usub x.length 1
  forLoop (List.range n) 0 fun result i => do
    let b ← get x (i + 1)
    let a ← get x i
    pure (result + (100 * (b - a ^ 2) ^ 2 + (1 - a) ^ 2))

/-- src/test_functions/mod.rs:2102-2116 -/
noncomputable def rosenbrock_modified : List ℝ → R := fn2 fun x1 x2 =>
  pure (74 + 100 * (x2 - x1 ^ 2) ^ 2 + (1 - x2) ^ 2
    - 400 * exp (-1 * (x1 + 1) ^ 2 + (x2 + 1) ^ 2 / 0.1))

/-- src/test_functions/mod.rs:2123-2132 -/
noncomputable def rotated_ellipse : List ℝ → R := fn2 fun x1 x2 =>
  pure (7 * x1 ^ 2 - 6 * sqrt 3 * x1 * x2 + 13 * x2 ^ 2)

/-- src/test_functions/mod.rs:2139-2148 -/
noncomputable def rotated_ellipse2 : List ℝ → R := fn2 fun x1 x2 =>
  pure (x1 ^ 2 - x1 * x2 + x2 ^ 2)

/-- src/test_functions/mod.rs:2154-2166 -/
noncomputable def rotated_hyper_ellipsoid (x : List ℝ) : R := do
  require (x ≠ [])
  pure ((List.range x.length).foldl (fun result i =>
    (x.take (i + 1)).foldl (fun result xj => result + xj ^ 2) result) 0)

/-- src/test_functions/mod.rs:2173-2186 -/
noncomputable def rump : List ℝ → R := fn2 fun x1 x2 =>
  pure ((333.75 - x1 ^ 2) * x2 ^ 6 + x1 ^ 2 * (11 * x1 ^ 2 * x2 ^ 2 - 121 * x2 ^ 4 - 2)
    + 5.5 * x2 ^ 8 + x1 / 2 * x2)

/-- src/test_functions/mod.rs:2191-2197 -/
noncomputable def salomon (x : List ℝ) : R :=
  let res := x.foldl (fun res arg => res + arg ^ 2) (0 : ℝ)
  pure (1 - cos (2 * π * res) + 0.1 * sqrt res)

/-- src/test_functions/mod.rs:2202-2214 (the update of `res` is inside the inner loop) -/
noncomputable def sargan (x : List ℝ) : R :=
  pure (x.zipIdx.foldl (fun res p =>
    (x.zipIdx.foldl (fun (s : ℝ × ℝ) q =>
      let innersum := if p.2 ≠ q.2 then s.2 + p.1 * q.1 else s.2
      (s.1 + x.length * (p.1 ^ 2 + 0.4 * innersum), innersum)) (res, 0)).1) 0)

/-- src/test_functions/mod.rs:2220-2230 -/
noncomputable def schaffer_n1 : List ℝ → R := fn2 fun x1 x2 =>
  pure (0.5 + (sin (x1 ^ 2 + x2 ^ 2) ^ 2 - 0.5) / (1 + 0.001 * (x1 ^ 2 + x2 ^ 2)))

/-- src/test_functions/mod.rs:2236-2246 -/
noncomputable def schaffer_n2 : List ℝ → R := fn2 fun x1 x2 =>
  pure (0.5 + (sin (x1 ^ 2 - x2 ^ 2) ^ 2 - 0.5) / (1 + 0.001 * (x1 ^ 2 + x2 ^ 2)) ^ 2)

/-- src/test_functions/mod.rs:2251-2264 -/
noncomputable def schaffer_n3 : List ℝ → R := fn2 fun x1 x2 =>
  pure (0.5 + (sin (cos |x1 ^ 2 - x2 ^ 2|) ^ 2 - 0.5) / (1 + 0.001 * (x1 ^ 2 + x2 ^ 2) ^ 2))

/-- src/test_functions/mod.rs:2273-2286 -/
noncomputable def schaffer_n4 : List ℝ → R := fn2 fun x1 x2 =>
  pure (0.5 + (cos (sin |x1 ^ 2 - x2 ^ 2|) ^ 2 - 0.5) / (1 + 0.001 * (x1 ^ 2 + x2 ^ 2)) ^ 2)

/-- src/test_functions/mod.rs:2293-2305 -/
noncomputable def schmidt_vetters : List ℝ → R := fn3 fun x1 x2 x3 =>
  pure (1 / (1 + (x1 - x2) ^ 2) + sin ((π * x2 + x3) / 2) + exp (((x1 + x2) / 2 - 2) ^ 2))

/-- src/test_functions/mod.rs:2312-2318 -/
noncomputable def schumer_steiglitz (x : List ℝ) : R :=
  pure (x.foldl (fun res arg => res + arg ^ 4) 0)

/-- src/test_functions/mod.rs:2324-2334 -/
noncomputable def schwefel (x : List ℝ) : R := do
  require (x ≠ [])
  pure (x.foldl (fun result a => result - a * sin (sqrt |a|)) (418.9829 * x.length))

/-- The double loop of src/test_functions/mod.rs:2354-2362 and 2386-2393: it reads `x[1..5]`,
`c[j][j]` and `beta[1..=m]`. -/
noncomputable def shekelLoop (x beta : List ℝ) (c : List (List ℝ)) (m : ℕ) : R :=
  forLoop (List.range' 1 m) 0 fun res i => do
    let sum ← forLoop (List.range' 1 4) 0 fun sum j => do
      let xj ← get x j
      let cr ← get c j
      let cj ← get cr j
      pure (sum + (xj - cj) ^ 2)
    let b ← get beta i
    let q ← fdiv 1 (sum + b)
    pure (res + q)

/-- src/test_functions/mod.rs:2345-2363 (`m` is an `i32`; the assertions rule out a negative one) -/
noncomputable def shekel (x : List ℝ) (m : ℕ) (beta : List ℝ) (c : List (List ℝ)) : R := do
  require (x.length = 4)
  let c0 ← get c 0
  require (c0.length = 4)
  require (c.length = m)
  require (beta.length = m)
  shekelLoop x beta c m

/-- The constants of src/test_functions/mod.rs:2378-2385. -/
noncomputable def shekelBeta : List ℝ := [1, 2, 2, 4, 4, 6, 3, 7, 5, 5].map fun v => 0.1 * v
noncomputable def shekelC : List (List ℝ) :=
  [[4, 1, 8, 6, 3, 2, 5, 8, 6, 7], [4, 1, 8, 6, 7, 9, 3, 1, 2, 3.6],
   [4, 1, 8, 6, 3, 2, 5, 8, 6, 7], [4, 1, 8, 6, 7, 9, 3, 1, 2, 3.6]]

/-- src/test_functions/mod.rs:2371-2394 -/
noncomputable def shekel_default (x : List ℝ) : R := do
  require (x.length = 4)
  shekelLoop x shekelBeta shekelC 10

/-- src/test_functions/mod.rs:2403-2418 -/
noncomputable def shubert : List ℝ → R := fn2 fun x1 x2 =>
  let y1 := (List.range' 1 5).foldl (fun y (i : ℕ) => y + (i : ℝ) * cos (((i + 1 : ℕ) : ℝ) * x1 + i)) (0 : ℝ)
  let y2 := (List.range' 1 5).foldl (fun y (i : ℕ) => y + (i : ℝ) * cos (((i + 1 : ℕ) : ℝ) * x2 + i)) (0 : ℝ)
  pure (y1 * y2)

/-- src/test_functions/mod.rs:2426-2436 -/
noncomputable def sphere (x : List ℝ) : R := do
  require (x ≠ [])
  pure (x.foldl (fun result a => result + a ^ 2) 0)

/-- src/test_functions/mod.rs:2442-2453 -/
noncomputable def styblinski_tang (x : List ℝ) : R := do
  require (x ≠ [])
  let result := x.foldl (fun result a => result + (a ^ 4 - 16 * a ^ 2 + 5 * a)) (0 : ℝ)
  pure (result * 0.5)

/-- src/test_functions/mod.rs:2459-2473 -/
noncomputable def stretched_v_sine_wave (x : List ℝ) : R := do
  require (x ≠ [])
  forLoop x.zipIdx 0 fun result p => do
    let xn ← get x (p.2 + 1)
    pure (result + (xn ^ 2 + p.1 ^ 2) ^ (0.25 : ℝ)
      * (sin (50 * (xn ^ 2 + p.1 ^ 2) ^ (0.1 : ℝ)) ^ 2 + 0.1))

/-- src/test_functions/mod.rs:2479-2489 -/
noncomputable def sum_of_powers (x : List ℝ) : R := do
  require (x ≠ [])
  pure (x.zipIdx.foldl (fun result p => result + |p.1| ^ (p.2 + 1)) 0)

/-- src/test_functions/mod.rs:2495-2505 -/
noncomputable def sum_squares (x : List ℝ) : R := do
  require (x ≠ [])
  pure (x.zipIdx.foldl (fun result p => result + ((p.2 + 1 : ℕ) : ℝ) * p.1 ^ 2) 0)

/-- src/test_functions/mod.rs:2512-2527 -/
noncomputable def testtube_holder : List ℝ → R := fn2 fun x1 x2 =>
  pure (-4 * sin x1 * cos x2 * exp |cos (x1 ^ 2 + x2 ^ 2) / 200|)

/-- src/test_functions/mod.rs:2534-2543 -/
noncomputable def trecanni : List ℝ → R := fn2 fun x1 x2 =>
  pure (x1 ^ 4 - 4 * x1 ^ 3 + 4 * x1 + x2 ^ 2)

/-- src/test_functions/mod.rs:2550-2560 -/
noncomputable def trid (x : List ℝ) : R := do
  require (x.length ≥ 2)
  let x0 ← get x 0
  forLoop (List.range' 1 (x.length - 1)) ((x0 - 1) ^ 2) fun result i => do
    let a ← get x i
    let b ← get x (i - 1)
    pure (result + ((a - 1) ^ 2 - a * b))

/-- src/test_functions/mod.rs:2566-2578 -/
noncomputable def trid10 (x : List ℝ) : R := do
  require (x.length ≥ 2)
  let temp1 := x.foldl (fun acc val => acc + (val - 1) ^ 2) (0 : ℝ)
  let temp2 ← forLoop x.zipIdx 0 fun acc p => do
    let i ← usub p.2 1
    let a ← get x i
    pure (acc + p.1 * a)
  pure (temp1 - temp2)

/-- src/test_functions/mod.rs:2584-2601 -/
noncomputable def trigonometric1 (x : List ℝ) : R := do
  require (x.length ≥ 2)
  let sum := x.foldl (fun sum arg => sum + cos arg) (0 : ℝ)
  pure (x.zipIdx.foldl (fun res p =>
    res + (x.length - sum + (p.2 : ℝ) * (1 - cos p.1 - sin p.1)) ^ 2) 0)

/-- src/test_functions/mod.rs:2607-2622 (`sum` is not reset between the two loops) -/
noncomputable def trigonometric2 (x : List ℝ) : R := do
  require (x.length ≥ 2)
  let sum := x.foldl (fun sum arg => sum + cos arg) (0 : ℝ)
  let x0 ← get x 0
  let sum := x.foldl (fun sum arg => sum + (8 * sin (7 * (arg - 0.9) ^ 2) ^ 2
    + 6 * sin (14 * (x0 - 0.9) ^ 2) ^ 2 + (arg - 0.9) ^ 2)) sum
  pure (1 + sum)

/-- src/test_functions/mod.rs:2629-2638 -/
noncomputable def ursem1 : List ℝ → R := fn2 fun x1 x2 =>
  pure (-1 * sin (2 * x1 - 0.5 * π) - 3 * cos x2 - 0.5 * x1)

/-- src/test_functions/mod.rs:2643-2659 -/
noncomputable def ursem3 : List ℝ → R := fn2 fun x1 x2 =>
  pure (-1 * sin (2.2 * π * x1 + 0.5 * π) * (2 - |x1| / 2) * (3 - |x1| / 2)
    - 1 * sin (2.2 * π * x2 + 0.5 * π) * (2 - |x2| / 2) * (3 - |x2| / 2))

/-- src/test_functions/mod.rs:2664-2676 -/
noncomputable def ursem4 : List ℝ → R := fn2 fun x1 x2 =>
  pure (-3 * sin (0.5 * π * x1 + π * 0.5) * (2 - sqrt (x1 ^ 2 + x2 ^ 2)) / 4)

/-- src/test_functions/mod.rs:2681-2692 -/
noncomputable def ursem_waves : List ℝ → R := fn2 fun x1 x2 =>
  pure (-0.9 * x1 ^ 2 + x1 * x2 * (x2 ^ 2 - 4.5 * x2 ^ 2)
    + 4.7 * cos (3 * x1 - x2 ^ 2 * (2 + x1)) * sin (2.5 * π))

/-- src/test_functions/mod.rs:2698-2712 -/
noncomputable def trefethen : List ℝ → R := fn2 fun x1 x2 =>
  pure (exp (sin (50 * x1)) + sin (60 * exp x2) + sin (70 * sin x1) + sin (sin (80 * x2))
    - sin (10 * (x1 + x2)) + 0.25 * (x1 ^ 2 + x2 ^ 2))

/-- src/test_functions/mod.rs:2718-2733 -/
noncomputable def vss : List ℝ → R := fn2 fun x1 x2 => do
  let p ← powf (cos x2) (2 - 100 * cos (x2 ^ 2 / 30))
  pure (x1 ^ 2 - 100 * cos x1 ^ 2 - 100 * cos (x1 ^ 2 / 30) + x2 ^ 2 - 100 * p)

/-- src/test_functions/mod.rs:2741-2750 -/
noncomputable def wayburn_seader1 : List ℝ → R := fn2 fun x1 x2 =>
  pure ((x1 ^ 6 + x2 ^ 4 - 17) ^ 2 + (2 * x1 + x2 - 4) ^ 2)

/-- src/test_functions/mod.rs:2758-2770 -/
noncomputable def wayburn_seader2 : List ℝ → R := fn2 fun x1 x2 =>
  pure ((1.613 - 4 * (x1 - 0.3125) ^ 2 - 4 * (x2 - 1.625) ^ 2) ^ 2 + (x1 - 2) ^ 2)

/-- src/test_functions/mod.rs:2778-2789 -/
noncomputable def wayburn_seader3 : List ℝ → R := fn2 fun x1 x2 =>
  pure (2 * x1 ^ 3 / 3 - 8 * x1 ^ 2 + 33 * x1 - x1 * x2 + 5
    + ((x1 - 4) ^ 2 + (x2 - 5) ^ 2 - 4) ^ 2)

/-- src/test_functions/mod.rs:2794-2796 -/
def wordmax (chromosome : List Bool) : ℕ := (chromosome.filter fun gene => gene).length

/-- src/test_functions/mod.rs:2803-2813 (`4 / 3` is an integer division) -/
noncomputable def wolfe : List ℝ → R := fn3 fun x1 x2 x3 => do
  let p ← powf (x1 ^ 2 + x2 ^ 2 - x1 * x2) 0.75
  pure (((4 / 3 : ℕ) : ℝ) * p + x3)

/-- src/test_functions/mod.rs:2835-2847 -/
noncomputable def xin_she_yang_2 (x : List ℝ) : R := do
  require (x ≠ [])
  let temp1 := x.foldl (fun acc a => acc + |a|) (0 : ℝ)
  let temp2 := x.foldl (fun acc a => acc + sin (a ^ 2)) (0 : ℝ)
  pure (temp1 * exp (-temp2))

/-- src/test_functions/mod.rs:2853-2865 -/
noncomputable def zakharov (x : List ℝ) : R := do
  require (x ≠ [])
  let temp1 := x.zipIdx.foldl (fun acc p => acc + p.1 ^ 2) (0 : ℝ)
  let temp2 := x.zipIdx.foldl (fun acc p => acc + 0.5 * ((p.2 + 1 : ℕ) : ℝ) * p.1) (0 : ℝ)
  pure (temp1 + temp2 ^ 2 + temp2 ^ 4)

/-- src/test_functions/mod.rs:2873-2882 -/
noncomputable def zettl : List ℝ → R := fn2 fun x1 x2 =>
  pure ((x1 ^ 2 + x2 ^ 2 - 2 * x1) ^ 2 + 0.25 * x1)

/-- src/test_functions/mod.rs:2890-2899 -/
noncomputable def zirilli : List ℝ → R := fn2 fun x1 x2 =>
  pure (0.25 * x1 ^ 4 - 0.5 * x1 ^ 2 + 0.1 * x1 + 0.5 * x2 ^ 2)

end Ecrs.TF
