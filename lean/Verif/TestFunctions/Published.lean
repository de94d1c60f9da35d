import Mathlib.Analysis.SpecialFunctions.Trigonometric.Bounds
import Mathlib.Analysis.SpecialFunctions.Pow.Real
import Mathlib.Analysis.SpecialFunctions.Sqrt

/-!
# The benchmark functions as they are published

This file is a specification: it does not look at the code.  It writes down the functions the way
the benchmark literature defines them, with big sums and products over coordinates numbered from
`1` (`Fin n` counts from `0`, so the `i`-th coordinate of the literature is `x i` with number
`i + 1`).  Sources: Jamil and Yang, "A literature survey of benchmark functions for global
optimisation problems" (2013), and the library of Surjanovic and Bingham, which the crate's
function names and minima follow.  Where the two differ, the one the code is closer to is taken.
-/

namespace Ecrs.Published
open Real

variable {n : ℕ}

/-- The number the literature gives to coordinate `i`. -/
def num (i : Fin n) : ℝ := (i : ℕ) + 1

/-! ## Functions of any number of coordinates -/

noncomputable def ackley (x : Fin n → ℝ) : ℝ :=
  -20 * exp (-0.2 * sqrt (1 / n * ∑ i, x i ^ 2)) - exp (1 / n * ∑ i, cos (2 * π * x i)) + 20 + exp 1
noncomputable def alpine (x : Fin n → ℝ) : ℝ := ∑ i, |x i * sin (x i) + 0.1 * x i|
noncomputable def alpine2 (x : Fin n → ℝ) : ℝ := ∏ i, sqrt (x i) * sin (x i)
noncomputable def brown (x : Fin (n + 1) → ℝ) : ℝ :=
  ∑ i : Fin n, ((x i.castSucc ^ 2) ^ (x i.succ ^ 2 + 1) + (x i.succ ^ 2) ^ (x i.castSucc ^ 2 + 1))
noncomputable def chung_reynolds (x : Fin n → ℝ) : ℝ := (∑ i, x i ^ 2) ^ 2
noncomputable def cosine_mixture (x : Fin n → ℝ) : ℝ := -0.1 * ∑ i, cos (5 * π * x i) - ∑ i, x i ^ 2
noncomputable def csendes (x : Fin n → ℝ) : ℝ := ∑ i, x i ^ 6 * (2 + sin (1 / x i))
noncomputable def deb1 (x : Fin n → ℝ) : ℝ := -(1 / n) * ∑ i, sin (5 * π * x i) ^ 6
noncomputable def deb3 (x : Fin n → ℝ) : ℝ := -(1 / n) * ∑ i, sin (5 * π * (x i ^ (3 / 4 : ℝ) - 0.05)) ^ 6
noncomputable def dixon_price (x : Fin (n + 1) → ℝ) : ℝ :=
  (x 0 - 1) ^ 2 + ∑ i : Fin n, num i.succ * (2 * x i.succ ^ 2 - x i.castSucc) ^ 2
noncomputable def exponential (x : Fin n → ℝ) : ℝ := -exp (-0.5 * ∑ i, x i ^ 2)
noncomputable def griewank (x : Fin n → ℝ) : ℝ := ∑ i, x i ^ 2 / 4000 - ∏ i, cos (x i / sqrt (num i)) + 1
/-- The rescaled coordinate of the Levy function. -/
noncomputable def levyW (t : ℝ) : ℝ := 1 + (t - 1) / 4
noncomputable def levy (x : Fin (n + 1) → ℝ) : ℝ :=
  sin (π * levyW (x 0)) ^ 2
    + ∑ i : Fin n, (levyW (x i.castSucc) - 1) ^ 2 * (1 + 10 * sin (π * levyW (x i.castSucc) + 1) ^ 2)
    + (levyW (x (Fin.last n)) - 1) ^ 2 * (1 + sin (2 * π * levyW (x (Fin.last n))) ^ 2)
/-- With the usual steepness `m = 10`. -/
noncomputable def michalewicz (x : Fin n → ℝ) : ℝ := -∑ i, sin (x i) * sin (num i * x i ^ 2 / π) ^ (2 * 10)
noncomputable def paviani (x : Fin 10 → ℝ) : ℝ :=
  ∑ i, (log (x i - 2) ^ 2 + log (10 - x i) ^ 2) - (∏ i, x i) ^ (0.2 : ℝ)
noncomputable def pathologicalTerm (a b : ℝ) : ℝ :=
  0.5 + (sin (sqrt (100 * a ^ 2 + b ^ 2)) ^ 2 - 0.5) / (1 + 0.001 * (a ^ 2 - 2 * a * b + b ^ 2) ^ 2)
noncomputable def pathological (x : Fin (n + 1) → ℝ) : ℝ := ∑ i : Fin n, pathologicalTerm (x i.castSucc) (x i.succ)
/-- One block of Powell's singular function. -/
noncomputable def powellBlock (a b c d : ℝ) : ℝ :=
  (a + 10 * b) ^ 2 + 5 * (c - d) ^ 2 + (b - 2 * c) ^ 4 + 10 * (a - d) ^ 4
/-- Powell's singular function: the coordinates in blocks of four. -/
noncomputable def powell (x : Fin n → Fin 4 → ℝ) : ℝ := ∑ i, powellBlock (x i 0) (x i 1) (x i 2) (x i 3)
/-- Powell's second singular function: all windows of four consecutive coordinates. -/
noncomputable def powell2 (x : Fin (n + 3) → ℝ) : ℝ :=
  ∑ i : Fin n, powellBlock (x i.castSucc.castSucc.castSucc) (x i.castSucc.castSucc.succ) (x i.castSucc.succ.succ)
    (x i.succ.succ.succ)
noncomputable def powell_sum (x : Fin n → ℝ) : ℝ := ∑ i : Fin n, |x i| ^ ((i : ℕ) + 2)
/-- `b` lists the targets of the power sums of order `1`, `2`, …. -/
noncomputable def power_sum (b : Fin n → ℝ) (x : Fin n → ℝ) : ℝ :=
  ∑ k : Fin n, (∑ i, x i ^ ((k : ℕ) + 1) - b k) ^ 2
noncomputable def qing (x : Fin n → ℝ) : ℝ := ∑ i, (x i ^ 2 - num i) ^ 2
noncomputable def quintic (x : Fin n → ℝ) : ℝ :=
  ∑ i, |x i ^ 5 - 3 * x i ^ 4 + 4 * x i ^ 3 + 2 * x i ^ 2 - 10 * x i - 4|
noncomputable def rastrigin (x : Fin n → ℝ) : ℝ := 10 * n + ∑ i, (x i ^ 2 - 10 * cos (2 * π * x i))
noncomputable def rosenbrock (x : Fin (n + 1) → ℝ) : ℝ :=
  ∑ i : Fin n, (100 * (x i.succ - x i.castSucc ^ 2) ^ 2 + (x i.castSucc - 1) ^ 2)
noncomputable def rotated_hyper_ellipsoid (x : Fin n → ℝ) : ℝ := ∑ i : Fin n, ∑ j with j ≤ i, x j ^ 2
noncomputable def salomon (x : Fin n → ℝ) : ℝ :=
  1 - cos (2 * π * sqrt (∑ i, x i ^ 2)) + 0.1 * sqrt (∑ i, x i ^ 2)
noncomputable def sargan (x : Fin n → ℝ) : ℝ :=
  ∑ i : Fin n, n * (x i ^ 2 + 0.4 * ∑ j with j ≠ i, x i * x j)
noncomputable def schumer_steiglitz (x : Fin n → ℝ) : ℝ := ∑ i, x i ^ 4
noncomputable def schwefel (x : Fin n → ℝ) : ℝ := 418.9829 * n - ∑ i, x i * sin (sqrt |x i|)
noncomputable def sphere (x : Fin n → ℝ) : ℝ := ∑ i, x i ^ 2
noncomputable def styblinski_tang (x : Fin n → ℝ) : ℝ := 1 / 2 * ∑ i, (x i ^ 4 - 16 * x i ^ 2 + 5 * x i)
noncomputable def sum_squares (x : Fin n → ℝ) : ℝ := ∑ i, num i * x i ^ 2
noncomputable def trid (x : Fin (n + 1) → ℝ) : ℝ :=
  ∑ i, (x i - 1) ^ 2 - ∑ i : Fin n, x i.succ * x i.castSucc
noncomputable def trigonometric1 (x : Fin n → ℝ) : ℝ :=
  ∑ i, (n - ∑ j, cos (x j) + num i * (1 - cos (x i) - sin (x i))) ^ 2
noncomputable def trigonometric2 (x : Fin (n + 1) → ℝ) : ℝ :=
  1 + ∑ i, (8 * sin (7 * (x i - 0.9) ^ 2) ^ 2 + 6 * sin (14 * (x 0 - 0.9) ^ 2) ^ 2 + (x i - 0.9) ^ 2)
noncomputable def xin_she_yang_2 (x : Fin n → ℝ) : ℝ := (∑ i, |x i|) * exp (-∑ i, sin (x i ^ 2))
noncomputable def zakharov (x : Fin n → ℝ) : ℝ :=
  ∑ i, x i ^ 2 + (∑ i, 0.5 * num i * x i) ^ 2 + (∑ i, 0.5 * num i * x i) ^ 4
noncomputable def giunta (x : Fin 2 → ℝ) : ℝ :=
  0.6 + ∑ i, (sin (16 / 15 * x i - 1) + sin (16 / 15 * x i - 1) ^ 2 + 1 / 50 * sin (4 * (16 / 15 * x i - 1)))

/-! ## Functions of a fixed number of coordinates -/

noncomputable def ackley2 (x y : ℝ) : ℝ := -200 * exp (-0.02 * sqrt (x ^ 2 + y ^ 2))
noncomputable def ackley3 (x y : ℝ) : ℝ :=
  200 * exp (-0.02 * sqrt (x ^ 2 + y ^ 2)) + 5 * exp (cos (3 * x) + sin (3 * y))
noncomputable def adjiman (x y : ℝ) : ℝ := cos x * sin y - x / (y ^ 2 + 1)
noncomputable def bartels_conn (x y : ℝ) : ℝ := |x ^ 2 + y ^ 2 + x * y| + |sin x| + |cos y|
noncomputable def beale (x y : ℝ) : ℝ :=
  (1.5 - x + x * y) ^ 2 + (2.25 - x + x * y ^ 2) ^ 2 + (2.625 - x + x * y ^ 3) ^ 2
/-- The data the Biggs functions are fitted to, at time `0.1 i`. -/
noncomputable def biggsData2 (i : ℕ) : ℝ := exp (-(0.1 * i)) - 5 * exp (-(10 * (0.1 * i)))
noncomputable def biggsData5 (i : ℕ) : ℝ := biggsData2 i + 3 * exp (-(4 * (0.1 * i)))
noncomputable def biggs_exp2 (x1 x2 : ℝ) : ℝ :=
  ∑ i ∈ Finset.Icc (1 : ℕ) 10, (exp (-(0.1 * i) * x1) - 5 * exp (-(0.1 * i) * x2) - biggsData2 i) ^ 2
noncomputable def biggs_exp3 (x1 x2 x3 : ℝ) : ℝ :=
  ∑ i ∈ Finset.Icc (1 : ℕ) 10, (exp (-(0.1 * i) * x1) - x3 * exp (-(0.1 * i) * x2) - biggsData2 i) ^ 2
noncomputable def biggs_exp4 (x1 x2 x3 x4 : ℝ) : ℝ :=
  ∑ i ∈ Finset.Icc (1 : ℕ) 10, (x3 * exp (-(0.1 * i) * x1) - x4 * exp (-(0.1 * i) * x2) - biggsData2 i) ^ 2
/-- The data of the Brad function. -/
noncomputable def bradData : Fin 15 → ℝ :=
  ![0.14, 0.18, 0.22, 0.25, 0.29, 0.32, 0.35, 0.39, 0.37, 0.58, 0.73, 0.96, 1.34, 2.10, 4.39]
/-- One residual: the model with `u = i`, `v = 16 - i`, `w = min u v` against the datum `y`. -/
noncomputable def bradResidual (y : ℝ) (i : ℕ) (x1 x2 x3 : ℝ) : ℝ :=
  (y - x1 - i) / ((16 - i) * x2 + min (i : ℝ) (16 - i) * x3)
noncomputable def brad (x1 x2 x3 : ℝ) : ℝ := ∑ i : Fin 15, bradResidual (bradData i) ((i : ℕ) + 1) x1 x2 x3 ^ 2
noncomputable def bird (x y : ℝ) : ℝ :=
  sin x * exp ((1 - cos y) ^ 2) + cos y * exp ((1 - sin x) ^ 2) + (x - y) ^ 2
noncomputable def bohachevsky_n1 (x y : ℝ) : ℝ :=
  x ^ 2 + 2 * y ^ 2 - 0.3 * cos (3 * π * x) - 0.4 * cos (4 * π * y) + 0.7
noncomputable def bohachevsky_n2 (x y : ℝ) : ℝ :=
  x ^ 2 + 2 * y ^ 2 - 0.3 * cos (3 * π * x) * cos (4 * π * y) + 0.3
noncomputable def bohachevsky_n3 (x y : ℝ) : ℝ :=
  x ^ 2 + 2 * y ^ 2 - 0.3 * cos (3 * π * x + 4 * π * y) + 0.3
noncomputable def booth (x y : ℝ) : ℝ := (x + 2 * y - 7) ^ 2 + (2 * x + y - 5) ^ 2
noncomputable def box_betts (x1 x2 x3 : ℝ) : ℝ :=
  ∑ i ∈ Finset.Icc (1 : ℕ) 3, (exp (-0.1 * i * x1) - exp (-0.1 * i * x2) - (exp (-0.1 * i) - exp (-(i : ℝ))) * x3) ^ 2
noncomputable def branin (a b c r s t x y : ℝ) : ℝ := a * (y - b * x ^ 2 + c * x - r) ^ 2 + s * (1 - t) * cos x + s
/-- The recommended constants. -/
noncomputable def branin_rcos (x y : ℝ) : ℝ := branin 1 (5.1 / (4 * π ^ 2)) (5 / π) 6 10 (1 / (8 * π)) x y
noncomputable def branin_rcos2 (x y : ℝ) : ℝ :=
  (y - 5.1 * x ^ 2 / (4 * π ^ 2) + 5 * x / π - 6) ^ 2
    + 10 * (1 - 1 / (8 * π)) * cos x * cos y * log (x ^ 2 + y ^ 2 + 1) + 10
noncomputable def brent (x y : ℝ) : ℝ := (x + 10) ^ 2 + (y + 10) ^ 2 + exp (-x ^ 2 - y ^ 2)
/-- Without the square on the first summand, as in the survey. -/
noncomputable def bukin_2 (x y : ℝ) : ℝ := 100 * (y - 0.01 * x ^ 2 + 1) + 0.01 * (x + 10) ^ 2
noncomputable def bukin_4 (x y : ℝ) : ℝ := 100 * y ^ 2 + 0.01 * |x + 10|
noncomputable def bukin_n6 (x y : ℝ) : ℝ := 100 * sqrt |y - 0.01 * x ^ 2| + 0.01 * |x + 10|
noncomputable def three_hump_camel (x y : ℝ) : ℝ := 2 * x ^ 2 - 1.05 * x ^ 4 + x ^ 6 / 6 + x * y + y ^ 2
noncomputable def six_hump_camel (x y : ℝ) : ℝ :=
  (4 - 2.1 * x ^ 2 + x ^ 4 / 3) * x ^ 2 + x * y + (4 * y ^ 2 - 4) * y ^ 2
/-- The wells of the Chen functions. -/
noncomputable def chenWell (t : ℝ) : ℝ := 0.001 / (0.001 ^ 2 + t ^ 2)
noncomputable def chen_bird (x y : ℝ) : ℝ := -chenWell (x - 0.4 * y - 0.1) - chenWell (2 * x + y - 1.5)
noncomputable def chen_v (x y : ℝ) : ℝ :=
  -chenWell (x ^ 2 + y ^ 2 - 1) - chenWell (x ^ 2 + y ^ 2 - 0.5) - chenWell (x ^ 2 - y ^ 2)
noncomputable def chichinadze (x y : ℝ) : ℝ :=
  x ^ 2 - 12 * x + 11 + 10 * cos (π * x / 2) + 8 * sin (5 * π * x / 2)
    - (1 / 5 : ℝ) ^ (0.5 : ℝ) * exp (-0.5 * (y - 0.5) ^ 2)
noncomputable def colville (x1 x2 x3 x4 : ℝ) : ℝ :=
  100 * (x1 ^ 2 - x2) ^ 2 + (x1 - 1) ^ 2 + (x3 - 1) ^ 2 + 90 * (x3 ^ 2 - x4) ^ 2
    + 10.1 * ((x2 - 1) ^ 2 + (x4 - 1) ^ 2) + 19.8 * (x2 - 1) * (x4 - 1)
noncomputable def cross_in_tray (x y : ℝ) : ℝ :=
  -0.0001 * (|sin x * sin y * exp (abs (100 - sqrt (x ^ 2 + y ^ 2) / π))| + 1) ^ (0.1 : ℝ)
noncomputable def cube (x y : ℝ) : ℝ := 100 * (y - x ^ 3) ^ 2 + (1 - x) ^ 2
noncomputable def damavandi (x y : ℝ) : ℝ :=
  (1 - |sin (π * (x - 2)) * sin (π * (y - 2)) / (π ^ 2 * (x - 2) * (y - 2))| ^ 5)
    * (2 + (x - 7) ^ 2 + 2 * (y - 7) ^ 2)
noncomputable def deckkers_aarts (x y : ℝ) : ℝ :=
  10 ^ 5 * x ^ 2 + y ^ 2 - (x ^ 2 + y ^ 2) ^ 2 + 1 / 10 ^ 5 * (x ^ 2 + y ^ 2) ^ 4
noncomputable def dolan (x1 x2 x3 x4 x5 : ℝ) : ℝ :=
  (x1 + 1.7 * x2) * sin x1 - 1.5 * x3 - 0.1 * x4 * cos (x4 + x5 - x1) + 0.2 * x5 ^ 2 - x2 - 1
noncomputable def drop_wave (x y : ℝ) : ℝ := -(1 + cos (12 * sqrt (x ^ 2 + y ^ 2))) / (0.5 * (x ^ 2 + y ^ 2) + 2)
noncomputable def easom (x y : ℝ) : ℝ := -cos x * cos y * exp (-(x - π) ^ 2 - (y - π) ^ 2)
noncomputable def eavd (x y : ℝ) : ℝ := (x ^ 2 + y - 10) ^ 2 + (x + y ^ 2 - 7) ^ 2 + (x ^ 2 + y ^ 3 - 1) ^ 2
noncomputable def egg_crate (x y : ℝ) : ℝ := x ^ 2 + y ^ 2 + 25 * (sin x ^ 2 + sin y ^ 2)
noncomputable def eggholder (x y : ℝ) : ℝ :=
  -(y + 47) * sin (sqrt |y + x / 2 + 47|) - x * sin (sqrt |x - (y + 47)|)
noncomputable def exp2 (x y : ℝ) : ℝ :=
  ∑ i ∈ Finset.range 10,
    (exp (-((i : ℝ) * x / 10)) - 5 * exp (-((i : ℝ) * y / 10)) - exp (-((i : ℝ) / 10)) + 5 * exp (-(i : ℝ))) ^ 2
noncomputable def forrester_et_al (x : ℝ) : ℝ := (6 * x - 2) ^ 2 * sin (12 * x - 4)
noncomputable def freudenstein_roth (x y : ℝ) : ℝ :=
  (x - 13 + ((5 - y) * y - 2) * y) ^ 2 + (x - 29 + ((y + 1) * y - 14) * y) ^ 2
noncomputable def goldstein_price (x y : ℝ) : ℝ :=
  (1 + (x + y + 1) ^ 2 * (19 - 14 * x + 3 * x ^ 2 - 14 * y + 6 * x * y + 3 * y ^ 2))
    * (30 + (2 * x - 3 * y) ^ 2 * (18 - 32 * x + 12 * x ^ 2 + 48 * y - 36 * x * y + 27 * y ^ 2))
noncomputable def gramacy_lee (x : ℝ) : ℝ := sin (10 * π * x) / (2 * x) + (x - 1) ^ 4
noncomputable def himmelblau (x y : ℝ) : ℝ := (x ^ 2 + y - 11) ^ 2 + (x + y ^ 2 - 7) ^ 2
/-- The ridge common to the table functions. -/
noncomputable def ridge (x y : ℝ) : ℝ := exp |1 - sqrt (x ^ 2 + y ^ 2) / π|
noncomputable def holder_table (x y : ℝ) : ℝ := -|sin x * cos y * ridge x y|
noncomputable def holder_table2 (x y : ℝ) : ℝ := -|cos x * cos y * ridge x y|
noncomputable def hosaki (x y : ℝ) : ℝ :=
  (1 - 8 * x + 7 * x ^ 2 - 7 / 3 * x ^ 3 + 1 / 4 * x ^ 4) * y ^ 2 * exp (-y)
noncomputable def jennrich_sampson (x y : ℝ) : ℝ :=
  ∑ i ∈ Finset.Icc (1 : ℕ) 10, (2 + 2 * (i : ℝ) - (exp (i * x) + exp (i * y))) ^ 2
noncomputable def levy_n13 (x y : ℝ) : ℝ :=
  sin (3 * π * x) ^ 2 + (x - 1) ^ 2 * (1 + sin (3 * π * y) ^ 2) + (y - 1) ^ 2 * (1 + sin (2 * π * y) ^ 2)
noncomputable def keane (x y : ℝ) : ℝ := sin (x - y) ^ 2 * sin (x + y) ^ 2 / sqrt (x ^ 2 + y ^ 2)
noncomputable def leon (x y : ℝ) : ℝ := 100 * (y - x ^ 2) ^ 2 + (1 - x) ^ 2
noncomputable def matyas (x y : ℝ) : ℝ := 0.26 * (x ^ 2 + y ^ 2) - 0.48 * x * y
noncomputable def mccormick (x y : ℝ) : ℝ := sin (x + y) + (x - y) ^ 2 - 1.5 * x + 2.5 * y + 1
noncomputable def miele_cantrell (x1 x2 x3 x4 : ℝ) : ℝ :=
  (exp (-x1) - x2) ^ 4 + 100 * (x2 - x3) ^ 6 + tan (x3 - x4) ^ 4 + x1 ^ 8
noncomputable def parsopoulos (x y : ℝ) : ℝ := cos x ^ 2 + sin y ^ 2
noncomputable def pen_holder (x y : ℝ) : ℝ := -exp (-(|cos x * cos y * ridge x y|)⁻¹)
noncomputable def periodic (x y : ℝ) : ℝ := 1 + sin x ^ 2 + sin y ^ 2 - 0.1 * exp (-(x ^ 2 + y ^ 2))
noncomputable def price1 (x y : ℝ) : ℝ := (|x| - 5) ^ 2 + (|y| - 5) ^ 2
noncomputable def price3 (x y : ℝ) : ℝ := 100 * (y - x ^ 2) ^ 2 + 6 * (6.4 * (y - 0.5) ^ 2 - x - 0.6) ^ 2
noncomputable def price4 (x y : ℝ) : ℝ := (2 * x ^ 3 * y - y ^ 3) ^ 2 + (6 * x - y ^ 2 + y) ^ 2
noncomputable def quadratic (x y : ℝ) : ℝ :=
  -3803.84 - 138.08 * x - 232.92 * y + 128.08 * x ^ 2 + 203.64 * y ^ 2 + 182.25 * x * y
noncomputable def rosenbrock_modified (x y : ℝ) : ℝ :=
  74 + 100 * (y - x ^ 2) ^ 2 + (1 - x) ^ 2 - 400 * exp (-((x + 1) ^ 2 + (y + 1) ^ 2) / 0.1)
noncomputable def rotated_ellipse (x y : ℝ) : ℝ := 7 * x ^ 2 - 6 * sqrt 3 * x * y + 13 * y ^ 2
noncomputable def rotated_ellipse2 (x y : ℝ) : ℝ := x ^ 2 - x * y + y ^ 2
noncomputable def rump (x y : ℝ) : ℝ :=
  (333.75 - x ^ 2) * y ^ 6 + x ^ 2 * (11 * x ^ 2 * y ^ 2 - 121 * y ^ 4 - 2) + 5.5 * y ^ 8 + x / (2 * y)
noncomputable def schaffer_n1 (x y : ℝ) : ℝ :=
  0.5 + (sin ((x ^ 2 + y ^ 2) ^ 2) ^ 2 - 0.5) / (1 + 0.001 * (x ^ 2 + y ^ 2) ^ 2)
noncomputable def schaffer_n2 (x y : ℝ) : ℝ :=
  0.5 + (sin (x ^ 2 - y ^ 2) ^ 2 - 0.5) / (1 + 0.001 * (x ^ 2 + y ^ 2)) ^ 2
noncomputable def schaffer_n3 (x y : ℝ) : ℝ :=
  0.5 + (sin (cos |x ^ 2 - y ^ 2|) ^ 2 - 0.5) / (1 + 0.001 * (x ^ 2 + y ^ 2) ^ 2)
noncomputable def schaffer_n4 (x y : ℝ) : ℝ :=
  0.5 + (cos (sin |x ^ 2 - y ^ 2|) ^ 2 - 0.5) / (1 + 0.001 * (x ^ 2 + y ^ 2)) ^ 2
noncomputable def schmidt_vetters (x1 x2 x3 : ℝ) : ℝ :=
  1 / (1 + (x1 - x2) ^ 2) + sin ((π * x2 + x3) / 2) + exp (((x1 + x2) / x2 - 2) ^ 2)
noncomputable def shubertFactor (t : ℝ) : ℝ := ∑ i ∈ Finset.Icc (1 : ℕ) 5, (i : ℝ) * cos ((i + 1) * t + i)
noncomputable def shubert (x y : ℝ) : ℝ := shubertFactor x * shubertFactor y
noncomputable def testtube_holder (x y : ℝ) : ℝ := -4 * (sin x * cos y * exp |cos ((x ^ 2 + y ^ 2) / 200)|)
noncomputable def trecanni (x y : ℝ) : ℝ := x ^ 4 - 4 * x ^ 3 + 4 * x + y ^ 2
noncomputable def ursem1 (x y : ℝ) : ℝ := -sin (2 * x - 0.5 * π) - 3 * cos y - 0.5 * x
noncomputable def ursem3Term (t : ℝ) : ℝ := sin (2.2 * π * t + 0.5 * π) * ((2 - |t|) / 2) * ((3 - |t|) / 2)
noncomputable def ursem3 (x y : ℝ) : ℝ := -ursem3Term x - ursem3Term y
noncomputable def ursem4 (x y : ℝ) : ℝ := -3 * sin (0.5 * π * x + 0.5 * π) * ((2 - sqrt (x ^ 2 + y ^ 2)) / 4)
noncomputable def ursem_waves (x y : ℝ) : ℝ :=
  -0.9 * x ^ 2 + (y ^ 2 - 4.5 * y ^ 2) * x * y + 4.7 * cos (3 * x - y ^ 2 * (2 + x)) * sin (2.5 * π * x)
noncomputable def trefethen (x y : ℝ) : ℝ :=
  exp (sin (50 * x)) + sin (60 * exp y) + sin (70 * sin x) + sin (sin (80 * y)) - sin (10 * (x + y))
    + 1 / 4 * (x ^ 2 + y ^ 2)
noncomputable def vss (x y : ℝ) : ℝ :=
  x ^ 2 - 100 * cos x ^ 2 - 100 * cos (x ^ 2 / 30) + y ^ 2 - 100 * cos y ^ 2 - 100 * cos (y ^ 2 / 30)
noncomputable def wayburn_seader1 (x y : ℝ) : ℝ := (x ^ 6 + y ^ 4 - 17) ^ 2 + (2 * x + y - 4) ^ 2
noncomputable def wayburn_seader2 (x y : ℝ) : ℝ :=
  (1.613 - 4 * (x - 0.3125) ^ 2 - 4 * (y - 1.625) ^ 2) ^ 2 + (y - 1) ^ 2
noncomputable def wayburn_seader3 (x y : ℝ) : ℝ :=
  2 / 3 * x ^ 3 - 8 * x ^ 2 + 33 * x - x * y + 5 + ((x - 4) ^ 2 + (y - 5) ^ 2 - 4) ^ 2
noncomputable def wolfe (x1 x2 x3 : ℝ) : ℝ := 4 / 3 * (x1 ^ 2 + x2 ^ 2 - x1 * x2) ^ (0.75 : ℝ) + x3
noncomputable def zettl (x y : ℝ) : ℝ := (x ^ 2 + y ^ 2 - 2 * x) ^ 2 + 0.25 * x
noncomputable def zirilli (x y : ℝ) : ℝ := 0.25 * x ^ 4 - 0.5 * x ^ 2 + 0.1 * x + 0.5 * y ^ 2

end Ecrs.Published
