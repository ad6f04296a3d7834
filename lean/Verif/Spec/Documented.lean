import Mathlib.Analysis.SpecialFunctions.Pow.Real
import Mathlib.Analysis.SpecialFunctions.Log.Base

/-!
# The formulas and default parameters the documentation states

Transcribed from the class docstrings (bias.py 194-203, 222-230, 258-265, 297-308, 345-352, 396-408, 452-454, 474-475,
498-508, 540-541, 563-584, 780-784; concentration.py 268-278, 320-338, 359-369, 487-493, 612-625), not from the code.
`ν` is the peak height of the class docstring.
-/
namespace Halomod.Documented

noncomputable section

/-- the value in force of a model parameter: the one the user passed, else the documented default. -/
def given (kw : List (String × ℝ)) (k : String) (default : ℝ) : ℝ := (kw.lookup k).getD default

/-- the user only passed documented parameters. -/
def Known (kw : List (String × ℝ)) (names : List String) : Prop := ∀ p ∈ kw, p.1 ∈ names

def mo96 (δc ν : ℝ) : ℝ := 1 + (ν - 1) / δc

def jing98 (a b c n δc ν : ℝ) : ℝ := (a / ν ^ 4 + 1) ^ (b - c * n) * (1 + (ν ^ 2 - 1) / δc)

def st99 (q p δc ν : ℝ) : ℝ := 1 + (q * ν - 1) / δc + 2 * p / (δc * (1 + q ^ p * ν ^ p))

def smt01 (a b c δc ν : ℝ) : ℝ :=
  1 + 1 / (δc * √a) * (√a * a * ν + √a * b * (a * ν) ^ (1 - c)
    - (a * ν) ^ c / ((a * ν) ^ c + b * (1 - c) * (1 - c / 2)))

def seljak04 (a b c d e f g x : ℝ) : ℝ := a + b * x ^ c + d / (e * x + 1) + f * x ^ g

def seljakCosmo (a1 a2 Ωm n σ8 h x : ℝ) : ℝ :=
  Real.logb 10 x * (a1 * (Ωm - 0.3 + n - 1) + a2 * (σ8 - 0.9 + h - 0.7))

def pillepich10 (B0 B1 B2 ν : ℝ) : ℝ := B0 + B1 * √ν + B2 * ν

def tinker10 (B b c Δ δc ν : ℝ) : ℝ :=
  let y := Real.logb 10 Δ
  let A := 1 + 0.24 * y * Real.exp (-((4 / y) ^ 4))
  let a := 0.44 * y - 0.88
  let C := 0.019 + 0.107 * y + 0.19 * Real.exp (-((4 / y) ^ 4))
  1 - A * (ν ^ a / (ν ^ a + δc ^ a)) + B * ν ^ b + C * ν ^ c

def tinkerSD05 (a b c d ξ : ℝ) : ℝ := √((1 + a * ξ) ^ b / (1 + c * ξ) ^ d)

/-- the power-law concentration, concentration.py:324. -/
def power (a b c ms m z : ℝ) : ℝ := a / (1 + z) ^ c * (m / ms) ^ b

/-! ## density profiles as documented, up to the amplitude `ρ_s`: profiles.py 666, 753, 804, 870, 897, 974-975, 1046,
1093 (radius `r`, scale radius `R`) -/

def nfwRho (R r : ℝ) : ℝ := 1 / (r / R * (1 + r / R) ^ 2)
def hernquistRho (R r : ℝ) : ℝ := 1 / (r / R * (1 + r / R) ^ 3)
def mooreRho (R r : ℝ) : ℝ := 1 / ((r / R) ^ (1.5:ℝ) * (1 + r / R) ^ (1.5:ℝ))
def constantRho (_R _r : ℝ) : ℝ := 1
def generalizedNfwRho (α R r : ℝ) : ℝ := 1 / ((r / R) ^ α * (1 + r / R) ^ (3 - α))
def einastoRho (α R r : ℝ) : ℝ := Real.exp (-(2 / α) * ((r / R) ^ α - 1))
def coredNfwRho (R r : ℝ) : ℝ := 1 / ((r / R + 0.75) * (1 + r / R) ^ 2)
def powerLawCutRho (a b R r : ℝ) : ℝ := R ^ b / r ^ b * Real.exp (-a * r / R)

end
end Halomod.Documented
