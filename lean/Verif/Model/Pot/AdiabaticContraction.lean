import Verif.Model.Pot.RadialProfiles

set_option autoImplicit false

/-!
# AdiabaticContractionWrapperPotential

`galpy/potential/AdiabaticContractionWrapperPotential.py`.  Arrays are functions of the index, `n` is the last index.  `interp1d` and `numpy.interp` are linear
interpolation with the first and last value outside the grid.  `scipy.optimize.fixed_point` returns, if it returns, a fixed point up to its tolerance:
here exactly one, given as the argument `x` with the equation as a hypothesis of the theorems.  FITPACK's spline is the argument `fit`.
Parsing of units is left out.
-/

noncomputable section
namespace Verif.Contraction
open Real

/-- `numpy.interp(q, x, y)` and `interp1d(x, y, bounds_error=False, fill_value=(y[0], y[-1]))(q)` for increasing `x` (the sorting that `interp1d` does first is
left out: the radii given to it turn out to be in order). -/
def lin (x y : ℕ → ℝ) : ℕ → ℝ → ℝ
  | 0, _ => y 0
  | n + 1, q => if q ≤ x n then lin x y n q else if q ≤ x (n + 1) then (y (n + 1) - y n) / (x (n + 1) - x n) * (q - x n) + y n else y (n + 1)

/-- `func_M_DM_contract` (AdiabaticContractionWrapperPotential.py 132-134), for one radius. -/
def cautunMap (m b f M : ℝ) : ℝ := m * 1.023 * (m / (1 - f) / (M + b)) ^ (-0.54 : ℝ)
/-- `_contraction_Cautun2020` (130-136), with the fixed point `M`. -/
def cautun (r m M : ℝ) : ℝ := M / m * m / r ^ 2

/-- `func_r_contract` (143), for one radius. -/
def blumenthalMap (n : ℕ) (x B : ℕ → ℝ) (f r m rf : ℝ) : ℝ := r * (m / (1 - f)) / (m + lin x B n rf)
/-- `_contraction_Blumenthal1986` (139-149), with the fixed point `rf`. -/
def blumenthal (n : ℕ) (x M rf : ℕ → ℝ) (i : ℕ) : ℝ := lin rf M n (x i) / x i ^ 2

/-- `func_r_mean` (162). -/
def rMean (Rvir ri : ℝ) : ℝ := 0.85 * Rvir * (ri / Rvir) ^ (0.8 : ℝ)
/-- `M_DMO_rmean` (163). -/
def mMean (n : ℕ) (x M : ℕ → ℝ) (Rvir : ℝ) (i : ℕ) : ℝ := lin x M n (rMean Rvir (x i))
/-- `func_r_contract` (164-166), for one radius. -/
def gnedinMap (n : ℕ) (x B : ℕ → ℝ) (Rvir f r m rf : ℝ) : ℝ := r * (m / (1 - f)) / (m + lin x B n (rMean Rvir rf))
/-- `_contraction_Gnedin2004` (152-172), with the fixed point `rf`. -/
def gnedin (n : ℕ) (x M rf : ℕ → ℝ) (i : ℕ) : ℝ := lin rf M n (x i) / x i ^ 2

/-- `rmin=` (85-89). -/
def initRmin (rmax : ℝ) : Option ℝ → ℝ
  | some rmin => rmin
  | none => rmax / 2500
/-- `rgrid = numpy.geomspace(rmin, rmax, 301)` (93). -/
def grid (rmin rmax : ℝ) (i : ℕ) : ℝ := rmin * (rmax / rmin) ^ ((i : ℝ) / 300)
/-- `f_bar=` (99-100). -/
def initFbar (B M : ℕ → ℝ) : Option ℝ → ℝ
  | some f => f
  | none => B 300 / (B 300 + M 300)

/-- `numpy.concatenate(([0.0], a))` (116-117). -/
def cons0 (a : ℕ → ℝ) : ℕ → ℝ
  | 0 => 0
  | i + 1 => a i
/-- `new_rforce_func` (118). -/
def forceFunc (x F : ℕ → ℝ) (r : ℝ) : ℝ := -lin (cons0 x) (cons0 F) 301 r
/-- `Phi0` (121-124). -/
def phi0 (x F : ℕ → ℝ) : ℝ := (∫ r in cons0 x 0..cons0 x 301, forceFunc x F r) - cons0 F 301 * cons0 x 301
/-- `__init__` (115-127) after the contraction has given the forces `F` on the grid `x`: `amp` is a parameter of the constructor and not used; the function is called at the
grid points (interpSphericalPotential.py 80), `fit` is the spline through them (81). -/
def build (fit : (ℕ → ℝ) → (ℕ → ℝ) → ℝ → ℝ) (_amp : ℝ) (x F : ℕ → ℝ) : InterpSph.Obj :=
  ⟨fit (cons0 x) (fun i => forceFunc x F (cons0 x i)), cons0 x 0, cons0 x 301, phi0 x F⟩

end Verif.Contraction
