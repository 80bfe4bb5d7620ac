import Verif.Model.EOM
import Verif.Spec.Frames
import Mathlib.Analysis.Calculus.Deriv.Basic
import Mathlib.LinearAlgebra.Matrix.Notation

set_option autoImplicit false

/-!
# Fictitious forces of a non-inertial frame

`galpy/potential/NonInertialFrameForce.py`, its C version
`potential_c_ext/NonInertialFrameForce.c`, and the serialization in between,
`_parse_noninertial_frame_force` (`galpy/orbit/integratePlanarOrbit.py:835-967`). Not modelled: unit
conversion of Quantities (property C32), the single-entry cache of spline tables, `Omega` and
`Omegadot` of different shapes (one a number, the other a vector).
-/

noncomputable section
namespace Verif.NonInertial
open Real Spec

/-- A constructor argument that is either a constant or a function of time. A list of three functions
is a function with values in the vectors. -/
inductive Freq (α : Type) where
  | const (a : α)
  | func (f : ℝ → α)

/-- `_is_freq_func`, NonInertialFrameForce.py:16-25. -/
def Freq.isFunc {α : Type} : Freq α → Bool
  | .const _ => false
  | .func _ => true

/-- The arguments `Omega` and `Omegadot`, NonInertialFrameForce.py:87-92, by the shape of `Omega`:
absent, a number or function (rotation about `z`), an array or list of functions, a plain list of three
numbers. -/
inductive Rot where
  | none
  | z (Ω : Freq ℝ) (Ωdot : Option (Freq ℝ))
  | vec (Ω : Freq Vec) (Ωdot : Option (Freq Vec))
  | list (Ω : Vec) (Ωdot : Option (Freq Vec))

/-- Constructor arguments, NonInertialFrameForce.py:87-99. -/
structure Args where
  amp : ℝ
  rot : Rot
  x0 : Option (ℝ → Vec)
  v0 : Option (ℝ → Vec)
  a0 : Option (Freq Vec)

/-- Exceptions of the constructor: 145-153, 213-219 and the `RuntimeError` of `parse_frequency`
(conversion.py:542-553) for an input that is neither a number nor an array. -/
inductive Err where
  | kind
  | origin
  | notUnderstood

/-- The rotation attributes after the constructor, NonInertialFrameForce.py:139-194 and 229-250:
`zConst` has `_omegaz_only`, `_Omega_as_func = False`, the number `_Omega`, `_Omega2` and `_Omegadot`
(`none` when `_const_freq`); `vConst` also has `_Omega_for_cross`, `_Omegadot_for_cross`. -/
inductive RotSt where
  | none
  | zConst (Ω Ω2 : ℝ) (Ωdot : Option ℝ)
  | zFunc (Ω Ωdot : ℝ → ℝ)
  | vConst (Ω : Vec) (Ω2 : ℝ) (cross : Matrix (Fin 3) (Fin 3) ℝ)
      (Ωdot : Option (Vec × Matrix (Fin 3) (Fin 3) ℝ))
  | vFunc (Ω Ωdot : ℝ → Vec)

/-- The object. `lin` is `some` exactly when `_lin_acc`; `origin` holds `_x0, _v0`, which exist exactly
when the frame both rotates and accelerates (213-221). -/
structure Frame where
  amp : ℝ
  rot : RotSt
  a0 : Option (ℝ → Vec)
  origin : Option ((ℝ → Vec) × (ℝ → Vec))

/-- `_time_derivative`, NonInertialFrameForce.py:28-32. -/
def timeDerivative {α : Type} [AddCommGroup α] [Module ℝ α] (func : ℝ → α) (dt : ℝ) : ℝ → α :=
  fun t => (1 / (2 * dt)) • (func (t + dt) - func (t - dt))

/-- The default step of `_time_derivative`, NonInertialFrameForce.py:28. -/
def defaultDt : ℝ := 1 / 10 ^ 6

/-- `_Omega_for_cross`, NonInertialFrameForce.py:236-242 (also 244-250, 306-312, 314-320). -/
def crossMat (w : Vec) : Matrix (Fin 3) (Fin 3) ℝ :=
  !![0, -w 2, w 1; w 2, 0, -w 0; -w 1, w 0, 0]

/-- `numpy.linalg.norm(w) ** 2`, lines 231, 279, 282 (of a number: its square). -/
def norm2 (w : Vec) : ℝ := √(w 0 ^ 2 + w 1 ^ 2 + w 2 ^ 2) ^ 2

/-- The rotation part of the constructor, NonInertialFrameForce.py:139-194, 229-250. -/
def initRot : Rot → Except Err RotSt
  | .none => .ok .none
  | .z (.const w) none => .ok (.zConst w (√(w ^ 2) ^ 2) none)
  | .z (.const w) (some (.const d)) => .ok (.zConst w (√(w ^ 2) ^ 2) (some d))
  | .z (.const _) (some (.func _)) => .error .kind
  | .z (.func f) none => .ok (.zFunc f (timeDerivative f defaultDt))
  | .z (.func f) (some (.func d)) => .ok (.zFunc f d)
  | .z (.func _) (some (.const _)) => .error .kind
  | .vec (.const w) none => .ok (.vConst w (norm2 w) (crossMat w) none)
  | .vec (.const w) (some (.const d)) => .ok (.vConst w (norm2 w) (crossMat w) (some (d, crossMat d)))
  | .vec (.const _) (some (.func _)) => .error .kind
  | .vec (.func f) none => .ok (.vFunc f (timeDerivative f defaultDt))
  | .vec (.func f) (some (.func d)) => .ok (.vFunc f d)
  | .vec (.func _) (some (.const _)) => .error .kind
  | .list _ (some (.func _)) => .error .kind
  | .list _ _ => .error .notUnderstood

/-- `_a0` as functions of time, NonInertialFrameForce.py:195-212. -/
def initA0 : Option (Freq Vec) → Option (ℝ → Vec)
  | none => none
  | some (.const a) => some fun _ => a
  | some (.func f) => some f

/-- `__init__`, NonInertialFrameForce.py:131-260. -/
def init (A : Args) : Except Err Frame :=
  match initRot A.rot with
  | .error e => .error e
  | .ok .none => .ok ⟨A.amp, .none, initA0 A.a0, none⟩
  | .ok r =>
    match A.a0 with
    | none => .ok ⟨A.amp, r, none, none⟩
    | some a =>
      match A.x0, A.v0 with
      | some x0, some v0 => .ok ⟨A.amp, r, initA0 (some a), some (x0, v0)⟩
      | _, _ => .error .origin

/-- The terms for a rotation about the `z` axis, NonInertialFrameForce.py:283-303: frequency `Ω`, its
square, its derivative unless `_const_freq`. -/
def zTerms (Ω Ω2 : ℝ) (Ωdot : Option ℝ) (origin : Option (Vec × Vec)) (x v : Vec) : Vec :=
  let force : Vec := (-2 * Ω) • ![-v 1, v 0, 0] + Ω2 • ![x 0, x 1, 0];
  let force := match origin with
    | none => force
    | some (x0, v0) => force + ((-2 * Ω) • ![-v0 1, v0 0, 0] + Ω2 • ![x0 0, x0 1, 0]);
  match Ωdot with
  | none => force
  | some d =>
    let force := force - d • ![-x 1, x 0, 0];
    match origin with
    | none => force
    | some (x0, _) => force - d • ![-x0 1, x0 0, 0]

/-- The terms for a rotation about any axis, NonInertialFrameForce.py:304-351; `late` is the time
factor of the terms at 336-342 and 346-350, which are only added when `Omega` is a constant. -/
def vTerms (Ω : Vec) (Ω2 : ℝ) (cross : Matrix (Fin 3) (Fin 3) ℝ)
    (dotCross : Option (Matrix (Fin 3) (Fin 3) ℝ)) (late : Option ℝ) (origin : Option (Vec × Vec))
    (x v : Vec) : Vec :=
  let force : Vec := (-2 : ℝ) • cross.mulVec v + Ω2 • x - (Ω ⬝ᵥ x) • Ω;
  let force := match origin with
    | none => force
    | some (x0, v0) => force + ((-2 : ℝ) • cross.mulVec v0 + Ω2 • x0 - (Ω ⬝ᵥ x0) • Ω);
  match dotCross with
  | none => force
  | some D =>
    let force := match late with
      | none => force
      | some t => force - (2 * t) • D.mulVec v;
    let force := force - D.mulVec x;
    match origin with
    | none => force
    | some (x0, v0) =>
      let force := match late with
        | none => force
        | some t => force - (2 * t) • D.mulVec v0;
      force - D.mulVec x0

/-- The rotation terms, NonInertialFrameForce.py:273-351. -/
def rotTerms (r : RotSt) (origin : Option (Vec × Vec)) (t : ℝ) (x v : Vec) : Vec :=
  match r with
  | .none => 0
  | .zConst Ω Ω2 none => zTerms Ω Ω2 none origin x v
  | .zConst Ω _ (some d) => zTerms (Ω + d * t) (√((Ω + d * t) ^ 2) ^ 2) (some d) origin x v
  | .zFunc Ω Ωdot => zTerms (Ω t) (√(Ω t ^ 2) ^ 2) (some (Ωdot t)) origin x v
  | .vConst Ω Ω2 cross none => vTerms Ω Ω2 cross none none origin x v
  | .vConst Ω _ cross (some (d, D)) =>
    vTerms (Ω + t • d) (norm2 (Ω + t • d)) cross (some D) (some t) origin x v
  | .vFunc Ω Ωdot =>
    vTerms (Ω t) (norm2 (Ω t)) (crossMat (Ω t)) (some (crossMat (Ωdot t))) none origin x v

/-- The rectangular components computed by `_force`, NonInertialFrameForce.py:272-353, from rectangular
position and velocity. -/
def forceXYZ (F : Frame) (t : ℝ) (x v : Vec) : Vec :=
  let force := rotTerms F.rot (F.origin.map fun o => (o.1 t, o.2 t)) t x v;
  match F.a0 with
  | none => force
  | some a => force - a t

/-- Inputs of `_force`, NonInertialFrameForce.py:262. -/
structure Input where
  R : ℝ
  z : ℝ
  phi : ℝ
  t : ℝ
  v : Vec

/-- Rectangular position, lines 270 and coords.py:1129-1151. -/
def Input.pos (i : Input) : Vec := ![i.R * cos i.phi, i.R * sin i.phi, i.z]
/-- Rectangular velocity, lines 271 and coords.py:1608-1635. -/
def Input.vel (i : Input) : Vec :=
  ![i.v 0 * cos i.phi - i.v 1 * sin i.phi, i.v 0 * sin i.phi + i.v 1 * cos i.phi, i.v 2]

/-- The attributes `_force_hash` and `_cached_force`, lines 251, 354-355. The MD5 digest of the inputs
is represented by the inputs themselves. -/
abbrev Cache : Type := Option (Input × Vec)

open Classical in
/-- `_force`, NonInertialFrameForce.py:262-356: the result and the new cache. -/
def force (F : Frame) (c : Cache) (i : Input) : Vec × Cache :=
  let compute : Vec × Cache :=
    let f := forceXYZ F i.t i.pos i.vel;
    (f, some (i, f));
  match c with
  | none => compute
  | some (j, f) => if i = j then (f, c) else compute

/-- The three methods of one object. -/
inductive Method where
  | Rforce
  | phitorque
  | zforce

/-- `_Rforce`, `_phitorque`, `_zforce`, NonInertialFrameForce.py:358-367, from the rectangular force,
times the amplitude (Force.py:287-318, `_Rforce_nodecorator` etc.). -/
def component (m : Method) (amp R phi : ℝ) (f : Vec) : ℝ :=
  match m with
  | .Rforce => amp * (cos phi * f 0 + sin phi * f 1)
  | .phitorque => amp * (R * (-sin phi * f 0 + cos phi * f 1))
  | .zforce => amp * f 2

/-- One method call on the object with its cache. -/
def call (F : Frame) (c : Cache) (m : Method) (i : Input) : ℝ × Cache :=
  let r := force F c i;
  (component m F.amp i.R i.phi r.1, r.2)

/-- A sequence of method calls. -/
def calls (F : Frame) : Cache → List (Method × Input) → List ℝ
  | _, [] => []
  | c, (m, i) :: l => (call F c m i).1 :: calls F (call F c m i).2 l

/-- The force field the integrators see: the methods of an object whose cache is empty. -/
def toForce (F : Frame) : Force where
  R := fun R z φ t v => (call F none .Rforce ⟨R, z, φ, t, v⟩).1
  phi := fun R z φ t v => (call F none .phitorque ⟨R, z, φ, t, v⟩).1
  z := fun R z φ t v => (call F none .zforce ⟨R, z, φ, t, v⟩).1

/-! ### C -/

/-- Arguments of the C force: flags `args[11..15]`, numbers `args[16..22]`, time functions
(NonInertialFrameForce.c:31-65). `tdep idx t` is `NonInertialFrameForce_tdep` (11-17),
`tdepDeriv sidx tidx t` is `NonInertialFrameForce_tdep_deriv` (19-25). -/
structure CArgs where
  amp : ℝ
  rotAcc : Bool
  linAcc : Bool
  omegazOnly : Bool
  constFreq : Bool
  omegaAsFunc : Bool
  Ω : Vec
  Ω2 : ℝ
  Ωdot : Vec
  tdep : ℕ → ℝ → ℝ
  tdepDeriv : ℕ → ℕ → ℝ → ℝ

/-- Rectangular force for a rotation about `z`, NonInertialFrameForce.c:66-102. -/
def cZ (A : CArgs) (t : ℝ) (x v : Vec) : Vec :=
  let o : ℕ := if A.linAcc then 9 else 0;
  let Ωz := if A.omegaAsFunc then A.tdep o t
    else if !A.constFreq then A.Ω 2 + A.Ωdot 2 * t else A.Ω 2;
  let Ω2 := if A.omegaAsFunc then Ωz * Ωz else if !A.constFreq then Ωz * Ωz else A.Ω2;
  let Ωd := if A.omegaAsFunc then A.tdepDeriv o (o + 1) t else A.Ωdot 2;
  let F : Vec := ![2 * Ωz * v 1 + Ω2 * x 0, -2 * Ωz * v 0 + Ω2 * x 1, 0];
  let F : Vec := if !A.constFreq then ![F 0 + Ωd * x 1, F 1 - Ωd * x 0, F 2] else F;
  if A.linAcc then
    let x0x := A.tdep 3 t;
    let x0y := A.tdep 4 t;
    let v0x := A.tdep 6 t;
    let v0y := A.tdep 7 t;
    let F : Vec := ![F 0 + (2 * Ωz * v0y + Ω2 * x0x), F 1 + (-2 * Ωz * v0x + Ω2 * x0y), F 2];
    if !A.constFreq then ![F 0 + Ωd * x0y, F 1 - Ωd * x0x, F 2] else F
  else F

/-- Rectangular force for a rotation about any axis, NonInertialFrameForce.c:103-157. -/
def cV (A : CArgs) (t : ℝ) (x v : Vec) : Vec :=
  let o : ℕ := if A.linAcc then 9 else 0;
  let Ωx := if A.omegaAsFunc then A.tdep o t
    else if !A.constFreq then A.Ω 0 + A.Ωdot 0 * t else A.Ω 0;
  let Ωy := if A.omegaAsFunc then A.tdep (o + 1) t
    else if !A.constFreq then A.Ω 1 + A.Ωdot 1 * t else A.Ω 1;
  let Ωz := if A.omegaAsFunc then A.tdep (o + 2) t
    else if !A.constFreq then A.Ω 2 + A.Ωdot 2 * t else A.Ω 2;
  let Ω2 := if A.omegaAsFunc then Ωx * Ωx + Ωy * Ωy + Ωz * Ωz
    else if !A.constFreq then Ωx * Ωx + Ωy * Ωy + Ωz * Ωz else A.Ω2;
  let dx := if A.omegaAsFunc then A.tdepDeriv o (o + 3) t else A.Ωdot 0;
  let dy := if A.omegaAsFunc then A.tdepDeriv (o + 1) (o + 4) t else A.Ωdot 1;
  let dz := if A.omegaAsFunc then A.tdepDeriv (o + 2) (o + 5) t else A.Ωdot 2;
  let Ωtx := Ωx * x 0 + Ωy * x 1 + Ωz * x 2;
  let F : Vec := ![2 * (Ωz * v 1 - Ωy * v 2) + Ω2 * x 0 - Ωx * Ωtx,
    -2 * (Ωz * v 0 - Ωx * v 2) + Ω2 * x 1 - Ωy * Ωtx,
    2 * (Ωy * v 0 - Ωx * v 1) + Ω2 * x 2 - Ωz * Ωtx];
  let F : Vec := if !A.constFreq then
    ![F 0 - (-dz * x 1 + dy * x 2), F 1 - (dz * x 0 - dx * x 2), F 2 - (-dy * x 0 + dx * x 1)] else F;
  if A.linAcc then
    let x0x := A.tdep 3 t;
    let x0y := A.tdep 4 t;
    let x0z := A.tdep 5 t;
    let v0x := A.tdep 6 t;
    let v0y := A.tdep 7 t;
    let v0z := A.tdep 8 t;
    let Ωtx := Ωx * x0x + Ωy * x0y + Ωz * x0z;
    let F : Vec := ![F 0 + (2 * (Ωz * v0y - Ωy * v0z) + Ω2 * x0x - Ωx * Ωtx),
      F 1 + (-2 * (Ωz * v0x - Ωx * v0z) + Ω2 * x0y - Ωy * Ωtx),
      F 2 + (2 * (Ωy * v0x - Ωx * v0y) + Ω2 * x0z - Ωz * Ωtx)];
    if !A.constFreq then
      ![F 0 - (-dz * x0y + dy * x0z), F 1 - (dz * x0x - dx * x0z), F 2 - (-dy * x0x + dx * x0y)] else F
  else F

/-- `NonInertialFrameForcexyzforces_xyz`, NonInertialFrameForce.c:27-169, from rectangular position and
velocity. -/
def cForceXYZ (A : CArgs) (t : ℝ) (x v : Vec) : Vec :=
  let F : Vec := if A.rotAcc then (if A.omegazOnly then cZ A t x v else cV A t x v) else 0;
  if A.linAcc then ![F 0 - A.tdep 0 t, F 1 - A.tdep 1 t, F 2 - A.tdep 2 t] else F

open Classical in
/-- The cache in `args[1..10]`, NonInertialFrameForce.c:45-52, 165-168, and the three force functions,
170-266. The slots are all 0 at the start (integratePlanarOrbit.py:860). -/
def cForce (A : CArgs) (c : Input × Vec) (i : Input) : Vec × (Input × Vec) :=
  if i.R ≠ c.1.R ∨ i.phi ≠ c.1.phi ∨ i.z ≠ c.1.z ∨ i.t ≠ c.1.t ∨ i.v 0 ≠ c.1.v 0 ∨ i.v 1 ≠ c.1.v 1
      ∨ i.v 2 ≠ c.1.v 2 then
    let f := cForceXYZ A i.t i.pos i.vel;
    (f, (i, f))
  else (c.2, c)

/-- The initial cache, integratePlanarOrbit.py:860. -/
def cCache0 : Input × Vec := (⟨0, 0, 0, 0, 0⟩, 0)

/-- A sequence of calls of the C force functions on one `args` block. -/
def cCalls (A : CArgs) : Input × Vec → List (Method × Input) → List ℝ
  | _, [] => []
  | c, (m, i) :: l =>
    component m A.amp i.R i.phi (cForce A c i).1 :: cCalls A (cForce A c i).2 l

/-- The list of time functions passed to C, integratePlanarOrbit.py:946-966. -/
def tfuncs (F : Frame) : List (ℝ → ℝ) :=
  let l := match F.a0 with
    | none => []
    | some a => [fun t => a t 0, fun t => a t 1, fun t => a t 2] ++
      match F.rot, F.origin with
      | .none, _ => []
      | _, some (x0, v0) => [fun t => x0 t 0, fun t => x0 t 1, fun t => x0 t 2,
          fun t => v0 t 0, fun t => v0 t 1, fun t => v0 t 2]
      | _, none => [];
  l ++ match F.rot with
    | .zFunc Ω Ωdot => [Ω, Ωdot]
    | .vFunc Ω Ωdot => [fun t => Ω t 0, fun t => Ω t 1, fun t => Ω t 2,
        fun t => Ωdot t 0, fun t => Ωdot t 1, fun t => Ωdot t 2]
    | _ => []

/-- `base_args` for the rotation, integratePlanarOrbit.py:859-877: `_rot_acc`, `_omegaz_only`,
`_const_freq`, `_Omega_as_func`, `Omega`, `_Omega2`, `Omegadot`. Without rotation `_omegaz_only` and
`_const_freq` are true and the numbers are not read. -/
def packRot : RotSt → Bool × Bool × Bool × Bool × Vec × ℝ × Vec
  | .none => (false, true, true, false, 0, 0, 0)
  | .zConst w w2 none => (true, true, true, false, ![0, 0, w], w2, 0)
  | .zConst w w2 (some d) => (true, true, false, false, ![0, 0, w], w2, ![0, 0, d])
  | .zFunc _ _ => (true, true, false, true, 0, 0, 0)
  | .vConst w w2 _ none => (true, false, true, false, w, w2, 0)
  | .vConst w w2 _ (some d) => (true, false, false, false, w, w2, d.1)
  | .vFunc _ _ => (true, false, false, true, 0, 0, 0)

/-- `_parse_noninertial_frame_force`, integratePlanarOrbit.py:835-967, with the two ways of evaluating
the functions left open. -/
def pack (F : Frame) (tdep : ℕ → ℝ → ℝ) (tdepDeriv : ℕ → ℕ → ℝ → ℝ) : CArgs :=
  let p := packRot F.rot;
  ⟨F.amp, p.1, F.a0.isSome, p.2.1, p.2.2.1, p.2.2.2.1, p.2.2.2.2.1, p.2.2.2.2.2.1, p.2.2.2.2.2.2,
    tdep, tdepDeriv⟩

/-- `pot_type 39`: C calls the functions, NonInertialFrameForce.c:16, 24. -/
def packCallbacks (F : Frame) : CArgs :=
  pack F (fun i t => (tfuncs F).getD i (fun _ => 0) t) (fun _ i t => (tfuncs F).getD i (fun _ => 0) t)

/-- Clamp of the time to the range of the table, NonInertialFrameForce.c:39-43. -/
def clamp (tmin tmax t : ℝ) : ℝ := by
  classical exact if t < tmin then tmin else if t > tmax then tmax else t

/-- `pot_type 45`: splines `S i` over `[tmin, tmax]`, NonInertialFrameForce.c:13-15, 21-23. -/
def packSplines (F : Frame) (tmin tmax : ℝ) (S : ℕ → ℝ → ℝ) : CArgs :=
  pack F (fun i t => S i (clamp tmin tmax t)) (fun i _ t => deriv (S i) (clamp tmin tmax t))

/-- `NonInertialFrameForceRectDissipativeForceJacobian`, NonInertialFrameForce.c:289-384: `dF/dx` and
`dF/dv`. -/
def cJac (A : CArgs) (t : ℝ) : Matrix (Fin 3) (Fin 3) ℝ × Matrix (Fin 3) (Fin 3) ℝ :=
  if !A.rotAcc then (0, 0) else
  let o : ℕ := if A.linAcc then 9 else 0;
  let Ω : Vec :=
    if A.omegazOnly then
      ![0, 0, if A.omegaAsFunc then A.tdep o t
        else if !A.constFreq then A.Ω 2 + A.Ωdot 2 * t else A.Ω 2]
    else if A.omegaAsFunc then ![A.tdep o t, A.tdep (o + 1) t, A.tdep (o + 2) t]
    else if !A.constFreq then ![A.Ω 0 + A.Ωdot 0 * t, A.Ω 1 + A.Ωdot 1 * t, A.Ω 2 + A.Ωdot 2 * t]
    else A.Ω;
  let d : Vec :=
    if !A.constFreq then
      (if A.omegazOnly then
        ![0, 0, if A.omegaAsFunc then A.tdepDeriv o (o + 1) t else A.Ωdot 2]
      else if A.omegaAsFunc then
        ![A.tdepDeriv o (o + 3) t, A.tdepDeriv (o + 1) (o + 4) t, A.tdepDeriv (o + 2) (o + 5) t]
      else A.Ωdot)
    else 0;
  let Ω2 := if A.constFreq && !A.omegaAsFunc then A.Ω2 else Ω 0 * Ω 0 + Ω 1 * Ω 1 + Ω 2 * Ω 2;
  (!![A.amp * (Ω2 - Ω 0 * Ω 0), A.amp * (-Ω 0 * Ω 1 + d 2), A.amp * (-Ω 0 * Ω 2 - d 1);
      A.amp * (-Ω 1 * Ω 0 - d 2), A.amp * (Ω2 - Ω 1 * Ω 1), A.amp * (-Ω 1 * Ω 2 + d 0);
      A.amp * (-Ω 2 * Ω 0 + d 1), A.amp * (-Ω 2 * Ω 1 - d 0), A.amp * (Ω2 - Ω 2 * Ω 2)],
   !![0, A.amp * 2 * Ω 2, A.amp * -2 * Ω 1;
      A.amp * -2 * Ω 2, 0, A.amp * 2 * Ω 0;
      A.amp * 2 * Ω 1, A.amp * -2 * Ω 0, 0])

end Verif.NonInertial
