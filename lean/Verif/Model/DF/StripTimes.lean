import Verif.Model.Pot.AdiabaticContraction

set_option autoImplicit false

/-!
# Times at which particles of a spray are stripped, from `stripping_pdf`

`_parse_stripping_pdf` in `galpy/df/streamspraydf.py`, lines 520-534, after the detection of units.  The number of intervals, 10000 in the code, is a parameter.
-/

noncomputable section
namespace Verif.StripTimes
open Real

/-- `numpy.linspace(-tdisrupt, 0, N + 1)` (520). -/
def grid (T : ℝ) (N i : ℕ) : ℝ := -T + i * (T / N)

/-- `cumulative_trapezoid(p, t, initial=0)` (524). -/
def cumTrap (t p : ℕ → ℝ) : ℕ → ℝ
  | 0 => 0
  | j + 1 => cumTrap t p j + (t (j + 1) - t j) * (p j + p (j + 1)) / 2

/-- `numpy.maximum.accumulate` (529). -/
def accMax (c : ℕ → ℝ) : ℕ → ℝ
  | 0 => c 0
  | j + 1 => max (accMax c j) (c (j + 1))

open Classical in
/-- The indices that `numpy.unique(c, return_index=True)` returns, in order (530-531): the first index of every value. -/
def kept (c : ℕ → ℝ) (N : ℕ) : List ℕ := (List.range (N + 1)).filter fun j => decide (∀ i < j, c i ≠ c j)

open Classical in
/-- `_parse_stripping_pdf` (520-534): the inverse of the cumulative distribution.  `InterpolatedUnivariateSpline` with `k=1` and `ext=3` interpolates linearly
and is constant outside. -/
def setup (T : ℝ) (N : ℕ) (pdf : ℝ → ℝ) : Except String (ℝ → ℝ) :=
  let p := fun i => pdf (grid T N i);
  if ∃ i ≤ N, p i < 0 then .error "ValueError"
  else
    let cdf := cumTrap (grid T N) p;
    if cdf N ≤ 0 then .error "ValueError"
    else
      let c := accMax fun i => cdf i / cdf N;
      let idx := kept c N;
      .ok (Contraction.lin (fun i => c (idx.getD i 0)) (fun i => grid T N (idx.getD i 0)) (idx.length - 1))

end Verif.StripTimes
