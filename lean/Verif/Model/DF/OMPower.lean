import Verif.Model.DF.Spherical

set_option autoImplicit false

/-!
# Osipkov-Merritt distribution function of power-law tracers in power-law potentials

`galpy/df/osipkovmerrittPowerLawdf.py`.  Units, the choice of `rmin` and arrays are left out (an array is done one entry at a time).  `_icmf`
(158-163) is the function `PowerDF.icmf`, `_vmax_at_r` (154-156) is `vmaxAtR` with `phiMax = 0`.
-/

noncomputable section
namespace Verif.OMPower
open Real Sph

/-- The assertions of the constructor (osipkovmerrittPowerLawdf.py 70-87), for the exponents `α` of the potential and `γ` of the tracer. -/
def accepts (α γ : ℝ) : Prop := 2 < α ∧ α / 2 < γ ∧ γ < 3

/-- `denspot=` (76-82): the exponent of the tracer. -/
def initGamma (α : ℝ) : Option ℝ → ℝ
  | some γ => γ
  | none => α

/-- `_s1` (106). -/
def s1 (α γ : ℝ) : ℝ := γ / (α - 2)
/-- `_s2` (107). -/
def s2 (α γ : ℝ) : ℝ := (γ - 2) / (α - 2)
/-- `edd_norm` (111). -/
def eddNorm : ℝ := 2 * √2 * π ^ (1.5 : ℝ)
/-- `_A1` (112-117); `_C` (100) and `_nu0` (104) as in the other power-law classes. -/
def A1 (amp α ampd γ : ℝ) : ℝ :=
  PowerDF.nu0 ampd γ / PowerDF.C amp α ^ s1 α γ * Gamma (s1 α γ + 1) / (eddNorm * Gamma (s1 α γ - 0.5))
/-- `_A2` (118-123).  Where `s2 = 1/2` the second gamma function is infinite and `_A2` is 0, as it is here. -/
def A2 (amp α ampd γ ra : ℝ) : ℝ :=
  PowerDF.nu0 ampd γ / (ra ^ 2 * PowerDF.C amp α ^ s2 α γ) * Gamma (s2 α γ + 1) / (eddNorm * Gamma (s2 α γ - 0.5))

/-- `fQ` (126-152) with `_n1` and `_n2` (108-109). -/
def fQ (amp α ampd γ ra Q : ℝ) : ℝ :=
  if 0 < Q then A1 amp α ampd γ * Q ^ (s1 α γ - 1.5) + A2 amp α ampd γ ra * Q ^ (s2 α γ - 1.5) else 0

end Verif.OMPower
