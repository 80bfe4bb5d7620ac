import Verif.Model.EOM
import Mathlib.Data.List.Sort
import Mathlib.Analysis.SpecialFunctions.Log.Basic
import Mathlib.Analysis.SpecialFunctions.Trigonometric.Arctan
import Mathlib.Algebra.BigOperators.Fin

set_option autoImplicit false

/-!
# Evolved disk distribution functions

`galpy/df/evolveddiskdf.py`: `evolveddiskdf.__call__` and the moments, vertex deviation and Oort
constants computed on a velocity grid. Phase-space points are `[R, vR, vT, phi]`, the order of
`Orbit.vxvv` for a planar orbit. A density is `some x` for a number `x` and `none` for NaN; it is in
internal units. Not modelled: unit conversion, printing, the message of an inaccurate integration
(194-204), the direct integration with `dblquad` (592-616) and the hierarchical grid (3175-3470).
-/

noncomputable section
namespace Verif.Evolved
open Real

/-- `[R, vR, vT, phi]`. -/
abbrev Phase : Type := Fin 4 → ℝ

/-- What an `evolveddiskdf` object and the orbit it is called with provide (36-67): the initial
distribution function of `R, vR, vT` (a `diskdf` uses nothing else, diskdf.py:184-194), the time `to` (here `tInit`)
of the initial condition, and orbit integration: `integ w s t` is the state at time `t` of the orbit
that has the state `w` at the first time `s` of the list passed to `Orbit.integrate`. -/
structure Setup where
  f : ℝ → ℝ → ℝ → Option ℝ
  tInit : ℝ
  integ : Phase → ℝ → ℝ → Phase

/-- `self._initdf(orbit)`. -/
def Setup.init (S : Setup) (w : Phase) : Option ℝ := S.f (w 0) (w 1) (w 2)

/-- The integration methods, by what 104-111 and the branches below ask about them. -/
inductive Meth where
  | odeint
  | leapfrog
  | python
  | symplecC
  | otherC
  deriving DecidableEq

/-- Fallback for potentials without a C implementation, evolveddiskdf.py:107-111. -/
def resolve (hasC : Bool) : Meth → Meth
  | .symplecC => if hasC then .symplecC else .leapfrog
  | .otherC => if hasC then .otherC else .odeint
  | m => m

/-- `numpy.linspace(a, b, n)`. -/
def linspace (a b : ℝ) (n : ℕ) : List ℝ :=
  (List.range n).map fun i : ℕ => a + (b - a) * (i : ℝ) / ((n : ℝ) - 1)

/-- `ts.sort(reverse=True)`. -/
def sortDesc (l : List ℝ) : List ℝ := l.insertionSort (· ≥ ·)

/-- Exceptions: `t[0]` of an empty list (168), and 2951-2952. -/
inductive Err where
  | index
  | unsorted

/-- `numpy.amax` of `t0 :: l`. -/
def amax (t0 : ℝ) (l : List ℝ) : ℝ := l.foldl max t0

open Classical in
/-- `_create_ts_tlist`, evolveddiskdf.py:2949-2969, for the list `t0 :: l`. -/
def createTs (S : Setup) (m : Meth) (t0 : ℝ) (l : List ℝ) : Except Err (List ℝ) :=
  if t0 :: l ≠ sortDesc (t0 :: l) then .error .unsorted
  else
    let tmax := amax t0 l;
    match m with
    | .odeint => .ok (sortDesc (linspace tmax S.tInit 1000
        ++ ((t0 :: l).filter (· ≠ tmax)).map fun ti => S.tInit + tmax - ti))
    | _ => match l with
      | [] => .ok (sortDesc [t0, S.tInit])
      | _ => .ok (sortDesc ((t0 :: l).map fun ti => -ti + S.tInit + tmax))

/-- NaN is replaced by 0, evolveddiskdf.py:223-228. -/
def nanToZero (x : Option ℝ) : Option ℝ := some (x.getD 0)

open Classical in
/-- `__call__(orbit, [t0, ...])`, evolveddiskdf.py:167-234, `deriv=None`, `log=False`; `m` is the
method after `resolve`. Simplification: for a list of one time the result is a number or a list of one
number depending on the method, here it is always a list. -/
def callList (S : Setup) (m : Meth) (w : Phase) : List ℝ → Except Err (List (Option ℝ))
  | [] => .error .index
  | t0 :: l =>
    if S.tInit = t0 then .ok [S.init w]
    else
      match createTs S m t0 l with
      | .error e => .error e
      | .ok ts =>
        let s := ts.headD 0;
        match m with
        | .odeint => .ok ((t0 :: l).map fun ti => S.init (S.integ w s (S.tInit + t0 - ti)))
        | _ =>
          let orb := ts.map (S.integ w s);
          match l with
          | [] => .ok [nanToZero (S.init (orb.getD 1 0))]
          | _ => .ok (orb.map fun y => nanToZero (S.init y)).reverse

/-- `numpy.finfo(numpy.float64).eps`. -/
def eps : ℝ := 2 ^ (-52 : ℤ)

open Classical in
/-- `__call__(orbit, t)`, evolveddiskdf.py:350-397, for a number `t`, `deriv=None`, `log=False`. -/
def callOne (S : Setup) (w : Phase) (t : ℝ) : Option ℝ :=
  if S.tInit = t then S.init w
  else
    let y := S.integ w t S.tInit;
    if y 0 ≤ 0 then some eps else S.init y

/-- `-numpy.finfo(numpy.float64).max`. -/
def negMax : ℝ := -(2 ^ 1024 - 2 ^ 971)

open Classical in
/-- `log=True` for a number `t`, evolveddiskdf.py:352-355, 390-395, 414-424. The logarithm of a
negative number is NaN; at `t = to` the density 0 gives `-inf`, which has no number here (`none`). -/
def callOneLog (S : Setup) (w : Phase) (t : ℝ) : Option ℝ :=
  let lg : Option ℝ → Option ℝ := fun x => x.bind fun d => if 0 < d then some (log d) else none;
  if S.tInit = t then lg (S.init w)
  else
    let y := S.integ w t S.tInit;
    if y 0 ≤ 0 then some negMax
    else if S.init y = some 0 then some negMax else lg (S.init y)

/-- Which derivative, evolveddiskdf.py:372-385. -/
inductive Dir where
  | R
  | phi

/-- Index of the coordinate in `[R, vR, vT, phi]`. -/
def Dir.idx : Dir → Fin 4
  | .R => 0
  | .phi => 3

/-- The pieces used for derivatives: `_dlnfdR`, `_dlnfdvR`, `_dlnfdvT` of the initial distribution
function and `Orbit.integrate_dxdv`: `dinteg w dw s t` is the state at time `t` of the deviation `dw`
of the orbit `w`. -/
structure DSetup where
  f : ℝ → ℝ → ℝ → ℝ
  fR : ℝ → ℝ → ℝ → ℝ
  fvR : ℝ → ℝ → ℝ → ℝ
  fvT : ℝ → ℝ → ℝ → ℝ
  tInit : ℝ
  integ : Phase → ℝ → ℝ → Phase
  dinteg : Phase → Phase → ℝ → ℝ → Phase

/-- The same object for `deriv=None`. -/
def DSetup.toSetup (S : DSetup) : Setup := ⟨fun a b c => some (S.f a b c), S.tInit, S.integ⟩

/-- `dderiv` in exact arithmetic, evolveddiskdf.py:373-375. -/
def dderiv : ℝ := (10 : ℝ) ^ (-10 : ℤ)

open Classical in
/-- `__call__(orbit, t, deriv=...)` for a number `t`, evolveddiskdf.py:356-362 and 369-413. -/
def callDeriv (S : DSetup) (d : Dir) (w : Phase) (t : ℝ) : ℝ :=
  if S.tInit = t then
    match d with
    | .R => S.f (w 0) (w 1) (w 2) * S.fR (w 0) (w 1) (w 2)
    | .phi => 0
  else
    let y := S.integ w t S.tInit;
    if y 0 ≤ 0 then eps
    else
      let dy := S.dinteg w (Pi.single d.idx dderiv) t S.tInit;
      S.f (y 0) (y 1) (y 2) *
        (S.fR (y 0) (y 1) (y 2) * (dy 0 / dderiv) + S.fvR (y 0) (y 1) (y 2) * (dy 1 / dderiv)
          + S.fvT (y 0) (y 1) (y 2) * (dy 2 / dderiv))

/-! ### Moments on a velocity grid -/

/-- `evolveddiskdfGrid`, evolveddiskdf.py:2887-2897, 2926-2944: the velocities and the density
(or its derivative). -/
structure Grid (n : ℕ) where
  vR : Fin n → ℝ
  vT : Fin n → ℝ
  df : Fin n → Fin n → ℝ

/-- `_vmomentsurfacemassGrid`, evolveddiskdf.py:2864-2869; the spacings are
`grid.vRgrid[1] - grid.vRgrid[0]` and the same for `vT`, so that a grid has at least two points. -/
def Grid.moment {n : ℕ} (g : Grid (n + 2)) (a b : ℕ) : ℝ :=
  (∑ i, g.vR i ^ a * ∑ j, g.df i j * g.vT j ^ b) * (g.vR 1 - g.vR 0) * (g.vT 1 - g.vT 0)

/-- `meanvR`, evolveddiskdf.py:846-923, with a grid. -/
def meanvR {n : ℕ} (g : Grid (n + 2)) : ℝ := g.moment 1 0 / g.moment 0 0
/-- `meanvT`, evolveddiskdf.py:995-1072, with a grid. -/
def meanvT {n : ℕ} (g : Grid (n + 2)) : ℝ := g.moment 0 1 / g.moment 0 0
/-- `sigmaR2`, evolveddiskdf.py:1149-1249, with a grid. -/
def sigmaR2 {n : ℕ} (g : Grid (n + 2)) : ℝ := g.moment 2 0 / g.moment 0 0 - meanvR g ^ 2
/-- `sigmaT2`, evolveddiskdf.py:1324-1424, with a grid. -/
def sigmaT2 {n : ℕ} (g : Grid (n + 2)) : ℝ := g.moment 0 2 / g.moment 0 0 - meanvT g ^ 2
/-- `sigmaRT`, evolveddiskdf.py:1502-1623, with a grid. -/
def sigmaRT {n : ℕ} (g : Grid (n + 2)) : ℝ := g.moment 1 1 / g.moment 0 0 - meanvR g * meanvT g
/-- `vertexdev`, evolveddiskdf.py:691-782, with a grid; radian. -/
def vertexdev {n : ℕ} (g : Grid (n + 2)) : ℝ :=
  -arctan (2 * sigmaRT g / (sigmaR2 g - sigmaT2 g)) / 2

/-- The quotient rule of `dmeanvRdphi`, `dmeanvTdR`, ... (1846-1925, 2149-2228, 2452-2531, 2755-2834):
`g` is the grid of the density, `d` that of its derivative. -/
def dmean {n : ℕ} (g d : Grid (n + 2)) (a b : ℕ) : ℝ :=
  d.moment a b / g.moment 0 0 - g.moment a b / g.moment 0 0 ^ 2 * d.moment 0 0

/-- `oortA`, evolveddiskdf.py:1827-1934; `dR`, `dphi` are `derivRGrid`, `derivphiGrid`. -/
def oortA {n : ℕ} (g dR dphi : Grid (n + 2)) (R : ℝ) : ℝ :=
  0.5 * (meanvT g / R - dmean g dphi 1 0 / R - dmean g dR 0 1)
/-- `oortB`, evolveddiskdf.py:2130-2237. -/
def oortB {n : ℕ} (g dR dphi : Grid (n + 2)) (R : ℝ) : ℝ :=
  0.5 * (-meanvT g / R + dmean g dphi 1 0 / R - dmean g dR 0 1)
/-- `oortC`, evolveddiskdf.py:2433-2540. -/
def oortC {n : ℕ} (g dR dphi : Grid (n + 2)) (R : ℝ) : ℝ :=
  0.5 * (-meanvR g / R - dmean g dphi 0 1 / R + dmean g dR 1 0)
/-- `oortK`, evolveddiskdf.py:2736-2843. -/
def oortK {n : ℕ} (g dR dphi : Grid (n + 2)) (R : ℝ) : ℝ :=
  0.5 * (meanvR g / R + dmean g dphi 0 1 / R + dmean g dR 1 0)

end Verif.Evolved
