import Verif.Model.Pot.SCF

set_option autoImplicit false

/-!
# SCFPotential in C

Transcription of `galpy/potential/potential_c_ext/SCFPotential.c`, of the parser `_parse_scf_pot`
(`galpy/orbit/integratePlanarOrbit.py`) and of the checks of the constructor (`SCFPotential.py`).  Arrays are functions of the
index.  GSL is outside: `gsl_sf_gegenpoly_array` is taken to give `geg` and the Legendre arrays `alp` and its derivative; the
position of an entry in them, which depends on the version of GSL, is `legIndex`, and reading the entry of `(l, m)` gives
`alp l m` because positions of different entries differ (theorem `C51_SCF_layout`).
-/

noncomputable section
namespace Verif.SCF
open Real Finset

/-! ### Constructor -/

open Classical in
/-- `_init_static`, SCFPotential.py:139-197, for three-dimensional `Acos`; `sameShape` is `Asin.shape == Acos.shape`.  Returns the
object and `isNonAxi`. -/
def construct (a : ℝ) (N L M : ℕ) (Ac : ℕ → ℕ → ℕ → ℝ) (As : Option (ℕ → ℕ → ℕ → ℝ)) (sameShape : Bool) : Except String (Par × Bool) :=
  let any (f : ℕ → ℕ → ℕ → ℝ) (P : ℕ → ℕ → Prop) : Prop := ∃ n < N, ∃ l < L, ∃ m < M, P l m ∧ f n l m ≠ 0;
  let allZero (f : ℕ → ℕ → ℕ → ℝ) : Prop := ∀ n < N, ∀ l < L, ∀ m < M, f n l m = 0;
  if As.isSome = true ∧ L ≠ M then .error "RuntimeError"
  else if As.isSome = false ∧ ¬(M = 1 ∨ L = M) then .error "RuntimeError"
  else if As.isSome = false ∧ 1 < L ∧ any Ac (fun _ m => 1 ≤ m) then .error "RuntimeError"
  else if As.isSome = true ∧ sameShape = false then .error "RuntimeError"
  else if any Ac (fun l m => l < m) ∨ (∃ f ∈ As, any f (fun l m => l < m)) then .error "RuntimeWarning"
  else
    let isNonAxi := if As.isSome = false ∨ L = 1 ∨ (¬any Ac (fun _ m => 1 ≤ m) ∧ ∃ f ∈ As, allZero f) then false else true;
    .ok (⟨a, N, L, M, false, Ac, As.getD fun _ _ _ => 0, fun _ _ _ _ => 0, fun _ _ _ _ => 0⟩, isNonAxi)

/-! ### Arguments -/

/-- `struct scf_data`, SCFPotential.c:45-59, without the cache. -/
structure CArgs where
  a : ℝ
  isNonAxi : Bool
  N : ℕ
  L : ℕ
  M : ℕ
  Nt : ℕ
  Acos : ℕ → ℝ
  Asin : ℕ → ℝ
  tgrid : ℕ → ℝ
  Acos_tpp : ℕ → ℝ
  Asin_tpp : ℕ → ℝ

/-- `flatten(order="C")` of an array of shape `(N, L, M)`. -/
def flat (L M : ℕ) (f : ℕ → ℕ → ℕ → ℝ) (j : ℕ) : ℝ := f (j / (L * M)) (j / M % L) (j % M)

/-- A time grid with the coefficients `c[k, i, ci]` of two `CubicSpline`s. -/
structure Spl where
  Nt : ℕ
  tgrid : ℕ → ℝ
  cc : ℕ → ℕ → ℕ → ℝ
  cs : ℕ → ℕ → ℕ → ℝ

/-- `c.transpose(1, 2, 0).ravel()` for `c` of shape `(4, Nt - 1, NLM)`. -/
def flatT (NLM : ℕ) (c : ℕ → ℕ → ℕ → ℝ) (j : ℕ) : ℝ := c (j % 4) (j / 4 / NLM) (j / 4 % NLM)

/-- `_parse_scf_pot`, integratePlanarOrbit.py:726-762 with `initSCFPotentialArgs`, SCFPotential.c:66-117; `amp` is
`extra_amp * p._amp`. -/
def parse (p : Par) (isNonAxi : Bool) (amp : ℝ) (s : Spl) : CArgs :=
  if p.tdep = true then
    ⟨p.a, isNonAxi, p.N, p.L, p.M, s.Nt, fun _ => 0, fun _ => 0, s.tgrid, fun j => amp * flatT (p.N * p.L * p.M) s.cc j,
      fun j => amp * flatT (p.N * p.L * p.M) s.cs j⟩
  else
    ⟨p.a, isNonAxi, p.N, p.L, p.M, 0, fun j => amp * flat p.L p.M (p.coef 0).c j, fun j => amp * flat p.L p.M (p.coef 0).s j,
      fun _ => 0, fun _ => 0, fun _ => 0⟩

/-- The loop in `scf_find_time_interval`, SCFPotential.c:126-134. -/
def bisect (tgrid : ℕ → ℝ) (t : ℝ) (lo hi : ℕ) : ℕ :=
  if h : lo < hi then
    open Classical in
    if tgrid ((lo + hi + 1) / 2) ≤ t then bisect tgrid t ((lo + hi + 1) / 2) hi else bisect tgrid t lo ((lo + hi + 1) / 2 - 1)
  else lo
termination_by hi - lo
decreasing_by all_goals omega

open Classical in
/-- `scf_find_time_interval`, SCFPotential.c:121-136. -/
def findInterval (tgrid : ℕ → ℝ) (Nt : ℕ) (t : ℝ) : ℕ :=
  if t ≤ tgrid 0 then 0
  else if tgrid (Nt - 1) ≤ t then Nt - 2
  else bisect tgrid t 0 (Nt - 2)

/-- `scf_interp_coeffs`, SCFPotential.c:141-151. -/
def interpC (pp : ℕ → ℝ) (NLM i : ℕ) (dt : ℝ) (ci : ℕ) : ℝ :=
  let cp := fun k => pp ((i * NLM + ci) * 4 + k);
  ((cp 0 * dt + cp 1) * dt + cp 2) * dt + cp 3

/-- The arrays `Acos`, `Asin` used at time `t`: static, or `scf_coeffs_at_t`, SCFPotential.c:154-172. -/
def coefC (d : CArgs) (t : ℝ) : (ℕ → ℝ) × (ℕ → ℝ) :=
  if 0 < d.Nt then
    let NLM := d.N * d.L * d.M;
    let i := findInterval d.tgrid d.Nt t;
    let dt := t - d.tgrid i;
    (interpC d.Acos_tpp NLM i dt, interpC d.Asin_tpp NLM i dt)
  else (d.Acos, d.Asin)

/-! ### Radial functions -/

/-- `calculateXi`, SCFPotential.c:181-184. -/
def xiC (r a : ℝ) : ℝ := (r - a) / (r + a)

/-- `compute_C`, SCFPotential.c:204-210. -/
def cC (xi : ℝ) (n l : ℕ) : ℝ := geg (1.5 + 2 * l) xi n
/-- `compute_dC`, SCFPotential.c:212-223. -/
def cdC (xi : ℝ) (n l : ℕ) : ℝ := (if n = 0 then 0 else geg (2.5 + 2 * l) xi (n - 1)) * (2 * (2 * l + 1.5))
/-- `compute_d2C`, SCFPotential.c:225-239. -/
def cd2C (xi : ℝ) (n l : ℕ) : ℝ :=
  (if n = 0 then 0 else if n = 1 then 0 else geg (3.5 + 2 * l) xi (n - 2)) * (4 * (2 * l + 1.5) * (2 * l + 2.5))

/-- `rterms` after the update for `l` in the loops below. -/
def rterm (init f : ℝ) : ℕ → ℝ
  | 0 => init
  | l + 1 => rterm init f l * f

/-- `compute_rhoTilde`, SCFPotential.c:244-257. -/
def rhoC (a r : ℝ) (n l : ℕ) : ℝ :=
  let rt := rterm (a * (r + a) ^ (-3 : ℝ) / r) (r * a / ((a + r) * (a + r))) l;
  let K : ℝ := 0.5 * n * (n + 4 * l + 3) + (l + 1) * (2 * l + 1);
  K * rt * cC (xiC r a) n l

/-- `compute_phiTilde`, SCFPotential.c:259-270. -/
def phiC (a r : ℝ) (n l : ℕ) : ℝ :=
  rterm (-1 / (r + a)) (r * a / ((a + r) * (a + r))) l * cC (xiC r a) n l

/-- `compute_dphiTilde`, SCFPotential.c:272-287. -/
def dphiC (a r : ℝ) (n l : ℕ) : ℝ :=
  let ar := a + r;
  rterm (1 / (r * ar * ar * ar)) (a * r / (ar * ar)) l
    * (((2 * l + 1) * r * ar - l * ar * ar) * cC (xiC r a) n l - 2 * a * r * cdC (xiC r a) n l)

/-- `compute_d2phiTilde`, SCFPotential.c:289-314. -/
def d2phiC (a r : ℝ) (n l : ℕ) : ℝ :=
  let ar := a + r;
  let ar2 := ar * ar;
  let ar3 := ar2 * ar;
  let ar4 := ar3 * ar;
  rterm (1 / (r * r * ar * ar * ar * ar * ar)) (a * r / (ar * ar)) l
    * (cC (xiC r a) n l * (l * (1 - l) * ar4 - (4 * l * l + 6 * l + 2) * r * r * ar2 + l * (4 * l + 2) * r * ar3)
      + a * r * ((4 * r * r + 4 * a * r + (8 * l + 4) * r * ar - 4 * l * ar2) * cdC (xiC r a) n l - 4 * a * r * cd2C (xiC r a) n l))

/-! ### Angular functions and sums -/

/-- `legendre_index`, SCFPotential.c:188-197. -/
def legIndex (gsl2 : Bool) (l m L : ℕ) : ℕ :=
  if gsl2 then l * (l + 1) / 2 + m else m * L - m * (m - 1) / 2 + (l - m)

/-- `dPth` of `legendre_theta_from_x`, SCFPotential.c:645-670. -/
def dPthC (θ : ℝ) (l m : ℕ) : ℝ := -sin θ * deriv (alp l m) (cos θ)
/-- `d2Pth` of `legendre_theta_from_x`, SCFPotential.c:645-670. -/
def d2PthC (θ : ℝ) (l m : ℕ) : ℝ :=
  cos θ * deriv (alp l m) (cos θ) - l * (l + 1) * alp l m (cos θ)
    + if m ≠ 0 then m * m * (1 / (sin θ * sin θ)) * alp l m (cos θ) else 0

/-- The loops of the summation functions, SCFPotential.c:366-391, 397-430, 439-484, 674-720: `f n l m cos_sum sin_diff` with
`cos_sum = A cos mφ + B sin mφ` and `sin_diff = A sin mφ - B cos mφ`; in the axisymmetric branch `cos_sum` is `A` and there is no
other. -/
def sumC (d : CArgs) (A : (ℕ → ℝ) × (ℕ → ℝ)) (φ : ℝ) (f : ℕ → ℕ → ℕ → ℝ → ℝ → ℝ) : ℝ :=
  if d.isNonAxi = true then
    ∑ l ∈ range d.L, ∑ m ∈ range (l + 1), ∑ n ∈ range d.N,
      let ci := n * d.L * d.M + l * d.M + m;
      f n l m (A.1 ci * cos (m * φ) + A.2 ci * sin (m * φ)) (A.1 ci * sin (m * φ) - A.2 ci * cos (m * φ))
  else ∑ l ∈ range d.L, ∑ n ∈ range d.N, f n l 0 (A.1 (n * d.L * d.M + l * d.M)) 0

/-- `sqrt(4 π)`, SCFPotential.c:392, 431, 478, 712. -/
def s4 : ℝ := √(4 * π)

/-- `compute_spher_forces` when nothing is cached, SCFPotential.c:491-555 with `sum_spher_forces`, lines 397-436. -/
def forcesC (d : CArgs) (R Z φ t : ℝ) : ℝ × ℝ × ℝ :=
  let r := √(R * R + Z * Z);
  let θ := Coords.atan2 R Z;
  let A := coefC d t;
  ((-sumC d A φ fun n l m cs _ => cs * alp l m (cos θ) * dphiC d.a r n l) * s4,
   (-sumC d A φ fun n l m cs _ => cs * deriv (alp l m) (cos θ) * phiC d.a r n l) * (s4 * (-sin θ)),
   (sumC d A φ fun n l m _ sd => m * sd * alp l m (cos θ) * phiC d.a r n l) * s4)

/-- `compute_spher_2nd_derivs` when nothing is cached, SCFPotential.c:558-640 with `sum_spher_2nd_derivs`, lines 439-488. -/
def derivsC (d : CArgs) (R Z φ t : ℝ) : ℝ × ℝ × ℝ :=
  let r := √(R * R + Z * Z);
  let θ := Coords.atan2 R Z;
  let A := coefC d t;
  ((sumC d A φ fun n l m cs _ => cs * alp l m (cos θ) * d2phiC d.a r n l) * s4,
   (-sumC d A φ fun n l m cs _ => m * m * cs * alp l m (cos θ) * phiC d.a r n l) * s4,
   (-sumC d A φ fun n l m _ sd => m * sd * alp l m (cos θ) * dphiC d.a r n l) * s4)

/-- The six cylindrical second derivatives. -/
structure Hess6 where
  R2 : ℝ
  z2 : ℝ
  Rz : ℝ
  phi2 : ℝ
  Rphi : ℝ
  zphi : ℝ

/-- `compute_scf_hessian_cyl` when nothing is cached, SCFPotential.c:727-825 with `sum_spher_full`, lines 674-724. -/
def hessC (d : CArgs) (R Z φ t : ℝ) : Hess6 :=
  let r := √(R * R + Z * Z);
  let θ := Coords.atan2 R Z;
  let A := coefC d t;
  let P := fun l m => alp l m (cos θ);
  let Φr := (sumC d A φ fun n l m cs _ => cs * P l m * dphiC d.a r n l) * s4;
  let Φt := (sumC d A φ fun n l m cs _ => cs * dPthC θ l m * phiC d.a r n l) * s4;
  let Φrr := (sumC d A φ fun n l m cs _ => cs * P l m * d2phiC d.a r n l) * s4;
  let Φtt := (sumC d A φ fun n l m cs _ => cs * d2PthC θ l m * phiC d.a r n l) * s4;
  let Φrt := (sumC d A φ fun n l m cs _ => cs * dPthC θ l m * dphiC d.a r n l) * s4;
  let Φpp := (-sumC d A φ fun n l m cs _ => m * m * cs * P l m * phiC d.a r n l) * s4;
  let Φrp := (sumC d A φ fun n l m _ sd => m * (-sd) * P l m * dphiC d.a r n l) * s4;
  let Φtp := (sumC d A φ fun n l m _ sd => m * (-sd) * dPthC θ l m * phiC d.a r n l) * s4;
  let ir := 1 / r;
  let ir2 := ir * ir;
  let ir3 := ir2 * ir;
  let ir4 := ir2 * ir2;
  let rR := R * ir;
  let rz := Z * ir;
  let thR := Z * ir2;
  let thz := -R * ir2;
  let rRR := Z * Z * ir3;
  let rzz := R * R * ir3;
  let rRz := -R * Z * ir3;
  let thRR := -2 * R * Z * ir4;
  let thzz := 2 * R * Z * ir4;
  let thRz := (R * R - Z * Z) * ir4;
  { R2 := Φrr * rR * rR + 2 * Φrt * rR * thR + Φtt * thR * thR + Φr * rRR + Φt * thRR
    z2 := Φrr * rz * rz + 2 * Φrt * rz * thz + Φtt * thz * thz + Φr * rzz + Φt * thzz
    Rz := Φrr * rR * rz + Φrt * (rR * thz + rz * thR) + Φtt * thR * thz + Φr * rRz + Φt * thRz
    phi2 := Φpp
    Rphi := Φrp * rR + Φtp * thR
    zphi := Φrp * rz + Φtp * thz }

/-- `SCFPotentialEval`, SCFPotential.c:828-862 with `sum_expansion`, lines 366-394. -/
def evalC (d : CArgs) (R Z φ t : ℝ) : ℝ :=
  let r := √(R * R + Z * Z);
  let θ := Coords.atan2 R Z;
  (sumC d (coefC d t) φ fun n l m cs _ => cs * alp l m (cos θ) * phiC d.a r n l) * s4

/-- `SCFPotentialDens`, SCFPotential.c:990-1025. -/
def densC (d : CArgs) (R Z φ t : ℝ) : ℝ :=
  let r := √(R * R + Z * Z);
  let θ := Coords.atan2 R Z;
  (sumC d (coefC d t) φ fun n l m cs _ => cs * alp l m (cos θ) * rhoC d.a r n l) * s4 / (2 * π)

/-! ### Public functions with the shared cache -/

/-- What `cached_type` and `cached_values` hold; the type is `-1` before the first call. -/
inductive Cached where
  | fresh
  | force (v : ℝ × ℝ × ℝ)
  | deriv (v : ℝ × ℝ × ℝ)
  | hess (v : Hess6)

/-- The cache: contents and `cached_coords`. -/
structure CState where
  val : Cached
  key : ℝ × ℝ × ℝ × ℝ

/-- The cache as passed by the parser, integratePlanarOrbit.py:733. -/
def CState.init : CState := ⟨.fresh, (0, 0, 0, 0)⟩

open Classical in
/-- `compute_spher_forces`, SCFPotential.c:491-555. -/
def forcesCM (d : CArgs) (s : CState) (R Z φ t : ℝ) : CState × (ℝ × ℝ × ℝ) :=
  let new := (let F := forcesC d R Z φ t; ((⟨.force F, (R, Z, φ, t)⟩ : CState), F));
  match s.val with
  | .force v => if s.key = (R, Z, φ, t) then (s, v) else new
  | _ => new

open Classical in
/-- `compute_spher_2nd_derivs`, SCFPotential.c:558-640. -/
def derivsCM (d : CArgs) (s : CState) (R Z φ t : ℝ) : CState × (ℝ × ℝ × ℝ) :=
  let new := (let F := derivsC d R Z φ t; ((⟨.deriv F, (R, Z, φ, t)⟩ : CState), F));
  match s.val with
  | .deriv v => if s.key = (R, Z, φ, t) then (s, v) else new
  | _ => new

open Classical in
/-- `compute_scf_hessian_cyl`, SCFPotential.c:727-825. -/
def hessCM (d : CArgs) (s : CState) (R Z φ t : ℝ) : CState × Hess6 :=
  let new := (let F := hessC d R Z φ t; ((⟨.hess F, (R, Z, φ, t)⟩ : CState), F));
  match s.val with
  | .hess v => if s.key = (R, Z, φ, t) then (s, v) else new
  | _ => new

/-- The public functions. -/
inductive CFun where
  | eval | dens | Rforce | zforce | phitorque
  | R2deriv | z2deriv | Rzderiv | phi2deriv | Rphideriv | zphideriv
  | planarRforce | planarphitorque | planarR2deriv | planarphi2deriv | planarRphideriv

/-- One call, SCFPotential.c:828-1025; the planar functions have no argument `Z` and ignore the one here. -/
def callC (d : CArgs) (s : CState) (f : CFun) (R Z φ t : ℝ) : CState × ℝ :=
  let r := fun Z : ℝ => √(R * R + Z * Z);
  let Rf := fun Z : ℝ => (let x := forcesCM d s R Z φ t; (x.1, x.2.1 * (R / r Z) + x.2.2.1 * (Z / (r Z * r Z))));
  let pf := fun Z : ℝ => (let x := forcesCM d s R Z φ t; (x.1, x.2.2.2));
  match f with
  | .eval => (s, evalC d R Z φ t)
  | .dens => (s, densC d R Z φ t)
  | .Rforce => Rf Z
  | .zforce => (let x := forcesCM d s R Z φ t; (x.1, x.2.1 * (Z / r Z) + x.2.2.1 * (-R / (r Z * r Z))))
  | .phitorque => pf Z
  | .R2deriv => (let x := hessCM d s R Z φ t; (x.1, x.2.R2))
  | .z2deriv => (let x := hessCM d s R Z φ t; (x.1, x.2.z2))
  | .Rzderiv => (let x := hessCM d s R Z φ t; (x.1, x.2.Rz))
  | .phi2deriv => (let x := hessCM d s R Z φ t; (x.1, x.2.phi2))
  | .Rphideriv => (let x := hessCM d s R Z φ t; (x.1, x.2.Rphi))
  | .zphideriv => (let x := hessCM d s R Z φ t; (x.1, x.2.zphi))
  | .planarRforce => Rf 0
  | .planarphitorque => pf 0
  | .planarR2deriv => (let x := derivsCM d s R 0 φ t; (x.1, x.2.1))
  | .planarphi2deriv => (let x := derivsCM d s R 0 φ t; (x.1, x.2.2.1))
  | .planarRphideriv => (let x := derivsCM d s R 0 φ t; (x.1, x.2.2.2))

/-- The results of a sequence of calls on one argument array. -/
def runC (d : CArgs) (s : CState) : List (CFun × ℝ × ℝ × ℝ × ℝ) → List ℝ
  | [] => []
  | (f, R, Z, φ, t) :: l => (let x := callC d s f R Z φ t; x.2 :: runC d x.1 l)

end Verif.SCF
