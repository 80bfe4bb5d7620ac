import Verif.Model.NonInertial
import Verif.Lemmas.EOM
import Verif.Spec.Dynamics
import Mathlib.LinearAlgebra.CrossProduct
import Mathlib.LinearAlgebra.Matrix.Trace
import Mathlib.Analysis.Calculus.Deriv.Pi
import Mathlib.Analysis.Calculus.Deriv.Mul
import Mathlib.Analysis.Calculus.MeanValue
import Mathlib.Analysis.SpecialFunctions.Trigonometric.Deriv

set_option autoImplicit false

/-!
# C56: orbits in a non-inertial frame are the orbits of the inertial frame

The specification is the documented relation `x = R (r + x0)` between inertial coordinates `x` and
coordinates `r` of the frame, with a rotation matrix `R` of angular velocity `Omega`, and Newton's
equation in the inertial frame.
-/

noncomputable section
namespace Verif
open NonInertial Spec Matrix

namespace C56Spec

/-- The documented fictitious force. -/
def fictitious (Ω Ωdot x0 v0 a0 r v : Vec) : Vec :=
  -a0 - Ω ⨯₃ (Ω ⨯₃ (r + x0)) - Ωdot ⨯₃ (r + x0) - (2 : ℝ) • (Ω ⨯₃ (v + v0))

/-- The documented meaning of `Omega` and `Omegadot`: absent, constant, `Omega + Omegadot t`, or given
functions, about `z` or about any axis. -/
def Rotation (r : Rot) (Ω Ωdot : ℝ → Vec) : Prop :=
  match r with
  | .none => Ω = (fun _ => 0) ∧ Ωdot = fun _ => 0
  | .z (.const w) none => Ω = (fun _ => ![0, 0, w]) ∧ Ωdot = fun _ => 0
  | .z (.const w) (some (.const d)) => Ω = (fun t => ![0, 0, w + d * t]) ∧ Ωdot = fun _ => ![0, 0, d]
  | .z (.func f) (some (.func d)) => Ω = (fun t => ![0, 0, f t]) ∧ Ωdot = fun t => ![0, 0, d t]
  | .vec (.const w) none => Ω = (fun _ => w) ∧ Ωdot = fun _ => 0
  | .vec (.const w) (some (.const d)) => Ω = (fun t => w + t • d) ∧ Ωdot = fun _ => d
  | .vec (.func f) (some (.func d)) => Ω = f ∧ Ωdot = d
  | _ => False

/-- The documented meaning of the constructor arguments: rotation, acceleration of the origin, and its
position and velocity, which have to be given when the frame both rotates and accelerates, are not
needed when it does not rotate, and are zero when it only rotates. -/
structure Describes (A : Args) (Ω Ωdot x0 v0 a0 : ℝ → Vec) : Prop where
  rot : Rotation A.rot Ω Ωdot
  acc : match A.a0 with
    | none => a0 = fun _ => 0
    | some (.const a) => a0 = fun _ => a
    | some (.func f) => a0 = f
  origin : match A.rot, A.a0 with
    | .none, _ => True
    | _, none => x0 = (fun _ => 0) ∧ v0 = fun _ => 0
    | _, some _ => A.x0 = some x0 ∧ A.v0 = some v0

/-- The kinematics of the frame at all times. -/
structure Kinematics (Rm : ℝ → Matrix (Fin 3) (Fin 3) ℝ) (Ω Ωdot x0 v0 a0 : ℝ → Vec) : Prop where
  rotation : ∀ s, IsRotation (Rm s)
  /-- `Omega` is the angular velocity of the frame: a vector `w` fixed in it moves with velocity
  `Omega × w`. -/
  rate : ∀ s w, HasDerivAt (fun s => Rm s *ᵥ w) (Rm s *ᵥ (Ω s ⨯₃ w)) s
  rateDot : ∀ s, HasDerivAt Ω (Ωdot s) s
  pos : ∀ s, HasDerivAt x0 (v0 s) s
  vel : ∀ s, HasDerivAt v0 (a0 s) s

end C56Spec
open C56Spec

namespace C56aux

theorem cross_eq (a b : Vec) :
    a ⨯₃ b = ![a 1 * b 2 - a 2 * b 1, a 2 * b 0 - a 0 * b 2, a 0 * b 1 - a 1 * b 0] := cross_apply a b

theorem sqrt_sq_sq (w : ℝ) : √(w ^ 2) ^ 2 = w ^ 2 := Real.sq_sqrt (sq_nonneg w)

theorem norm2_eq (w : Vec) : norm2 w = w 0 ^ 2 + w 1 ^ 2 + w 2 ^ 2 := Real.sq_sqrt (by positivity)

/-- The terms for a rotation about `z` are the documented force. -/
theorem zTerms_eq (w : ℝ) (d : Option ℝ) (o : Option (Vec × Vec)) (x v : Vec) :
    zTerms w (w ^ 2) d o x v =
      fictitious ![0, 0, w] ![0, 0, d.getD 0] ((o.getD (0, 0)).1) ((o.getD (0, 0)).2) 0 x v := by
  unfold fictitious zTerms
  funext i
  simp only [cross_eq]
  rcases o with _ | ⟨x0, v0⟩ <;> rcases d with _ | d <;> fin_cases i <;>
    simp [Matrix.vecHead, Matrix.vecTail] <;> ring

/-- The terms for a rotation about any axis are the documented force. -/
theorem vTerms_eq (w w' d : Vec) (D : Option (Matrix (Fin 3) (Fin 3) ℝ)) (late : Option ℝ)
    (hd : D = none ∧ d = 0 ∧ w' = w ∨ D = some (crossMat d) ∧ w' + (late.getD 0) • d = w)
    (o : Option (Vec × Vec)) (x v : Vec) :
    vTerms w (norm2 w) (crossMat w') D late o x v =
      fictitious w d ((o.getD (0, 0)).1) ((o.getD (0, 0)).2) 0 x v := by
  unfold fictitious vTerms
  rw [norm2_eq]
  funext i
  simp only [cross_eq]
  rcases hd with ⟨rfl, rfl, rfl⟩ | ⟨rfl, rfl⟩
  · rcases o with _ | ⟨x0, v0⟩ <;> fin_cases i <;>
      simp [crossMat, Matrix.vecHead, Matrix.vecTail, Fin.sum_univ_three, dotProduct] <;> ring
  · rcases o with _ | ⟨x0, v0⟩ <;> rcases late with _ | t <;> fin_cases i <;>
      simp [crossMat, Matrix.vecHead, Matrix.vecTail, Fin.sum_univ_three, dotProduct] <;> ring

theorem fict_a0 (Ω Ωdot x0 v0 a0 r v : Vec) :
    fictitious Ω Ωdot x0 v0 a0 r v = fictitious Ω Ωdot x0 v0 0 r v - a0 := by
  unfold fictitious
  abel

theorem rot_none (x0 v0 r v : Vec) : fictitious 0 0 x0 v0 0 r v = 0 := by
  unfold fictitious
  simp

theorem rotTerms_z (w w2 : ℝ) (d : Option ℝ) (h : w2 = w ^ 2) (o t x v) :
    rotTerms (.zConst w w2 d) o t x v = fictitious ![0, 0, w + d.getD 0 * t] ![0, 0, d.getD 0]
      ((o.getD (0, 0)).1) ((o.getD (0, 0)).2) 0 x v := by
  subst h
  rcases d with _ | d
  · simpa [rotTerms] using zTerms_eq w none o x v
  · simpa [rotTerms, sqrt_sq_sq] using zTerms_eq (w + d * t) (some d) o x v

theorem rotTerms_zf (f d : ℝ → ℝ) (o t x v) :
    rotTerms (.zFunc f d) o t x v = fictitious ![0, 0, f t] ![0, 0, d t]
      ((o.getD (0, 0)).1) ((o.getD (0, 0)).2) 0 x v := by
  simpa [rotTerms, sqrt_sq_sq] using zTerms_eq (f t) (some (d t)) o x v

theorem rotTerms_v (w : Vec) (d : Option Vec) (o t x v) :
    rotTerms (.vConst w (norm2 w) (crossMat w) (d.map fun d => (d, crossMat d))) o t x v =
      fictitious (w + t • d.getD 0) (d.getD 0) ((o.getD (0, 0)).1) ((o.getD (0, 0)).2) 0 x v := by
  rcases d with _ | d
  · simpa [rotTerms] using vTerms_eq w w 0 none none (Or.inl ⟨rfl, rfl, rfl⟩) o x v
  · simpa [rotTerms] using
      vTerms_eq (w + t • d) w d (some (crossMat d)) (some t) (Or.inr ⟨rfl, rfl⟩) o x v

theorem rotTerms_vf (f d : ℝ → Vec) (o t x v) :
    rotTerms (.vFunc f d) o t x v = fictitious (f t) (d t)
      ((o.getD (0, 0)).1) ((o.getD (0, 0)).2) 0 x v := by
  simpa [rotTerms] using
    vTerms_eq (f t) (f t) (d t) (some (crossMat (d t))) none (Or.inr ⟨rfl, by simp⟩) o x v

/-- What the constructor makes of the rotation arguments. -/
theorem initRot_of {r : Rot} {st : RotSt} {Ω Ωdot : ℝ → Vec} (hr : Rotation r Ω Ωdot)
    (h : initRot r = .ok st) :
    (r = .none ∧ st = .none ∧ Ω = (fun _ => 0) ∧ Ωdot = fun _ => 0) ∨
    (r ≠ .none ∧ st ≠ .none ∧ ∀ o t x v, rotTerms st o t x v =
      fictitious (Ω t) (Ωdot t) ((o.getD (0, 0)).1) ((o.getD (0, 0)).2) 0 x v) := by
  match r, hr with
  | .none, hr =>
    obtain ⟨rfl, rfl⟩ := hr
    simp only [initRot, Except.ok.injEq] at h
    exact Or.inl ⟨rfl, h.symm, rfl, rfl⟩
  | .z (.const w) none, hr =>
    obtain ⟨rfl, rfl⟩ := hr
    simp only [initRot, Except.ok.injEq] at h
    subst h
    refine Or.inr ⟨by simp, by simp, fun o t x v => ?_⟩
    have := rotTerms_z w _ none (sqrt_sq_sq w) o t x v
    have e : (![0, 0, 0] : Vec) = 0 := by ext i; fin_cases i <;> rfl
    simpa [e] using this
  | .z (.const w) (some (.const d)), hr =>
    obtain ⟨rfl, rfl⟩ := hr
    simp only [initRot, Except.ok.injEq] at h
    subst h
    refine Or.inr ⟨by simp, by simp, fun o t x v => ?_⟩
    simpa using rotTerms_z w _ (some d) (sqrt_sq_sq w) o t x v
  | .z (.func f) (some (.func d)), hr =>
    obtain ⟨rfl, rfl⟩ := hr
    simp only [initRot, Except.ok.injEq] at h
    subst h
    exact Or.inr ⟨by simp, by simp, fun o t x v => rotTerms_zf f d o t x v⟩
  | .vec (.const w) none, hr =>
    obtain ⟨rfl, rfl⟩ := hr
    simp only [initRot, Except.ok.injEq] at h
    subst h
    refine Or.inr ⟨by simp, by simp, fun o t x v => ?_⟩
    simpa using rotTerms_v w none o t x v
  | .vec (.const w) (some (.const d)), hr =>
    obtain ⟨rfl, rfl⟩ := hr
    simp only [initRot, Except.ok.injEq] at h
    subst h
    refine Or.inr ⟨by simp, by simp, fun o t x v => ?_⟩
    simpa using rotTerms_v w (some d) o t x v
  | .vec (.func f) (some (.func d)), hr =>
    obtain ⟨rfl, rfl⟩ := hr
    simp only [initRot, Except.ok.injEq] at h
    subst h
    exact Or.inr ⟨by simp, by simp, fun o t x v => rotTerms_vf _ _ o t x v⟩

theorem init_rot {A : Args} {F : Frame} (h : init A = .ok F) : initRot A.rot = .ok F.rot ∧ F.amp = A.amp := by
  unfold init at h
  split at h
  · simp at h
  · rename_i e
    simp only [Except.ok.injEq] at h
    subst h
    exact ⟨e, rfl⟩
  · rename_i r hr e
    split at h
    · simp only [Except.ok.injEq] at h
      subst h
      exact ⟨e, rfl⟩
    · split at h
      · simp only [Except.ok.injEq] at h
        subst h
        exact ⟨e, rfl⟩
      · simp at h

end C56aux
open C56aux

/-- The force of an accepted set of arguments is the documented fictitious force: Coriolis, centrifugal,
Euler and linear acceleration, for a constant, linearly changing or freely varying rotation about `z` or
about any axis, with or without motion of the origin. -/
theorem C56_force {A : Args} {F : Frame} (h : init A = .ok F) {Ω Ωdot x0 v0 a0 : ℝ → Vec}
    (hA : Describes A Ω Ωdot x0 v0 a0) (t : ℝ) (x v : Vec) :
    forceXYZ F t x v = fictitious (Ω t) (Ωdot t) (x0 t) (v0 t) (a0 t) x v := by
  obtain ⟨hr, -⟩ := init_rot h
  rw [fict_a0]
  unfold init at h
  have hacc := hA.acc
  have hor := hA.origin
  rcases initRot_of hA.rot hr with ⟨e1, e2, rfl, rfl⟩ | ⟨e1, e2, key⟩
  · rw [hr, e2] at h
    simp only [Except.ok.injEq] at h
    subst h
    rw [rot_none]
    rcases ha : A.a0 with _ | a | a <;> rw [ha] at hacc <;> simp only at hacc <;> subst hacc <;>
      simp [forceXYZ, rotTerms, initA0]
  · rw [hr] at h
    rcases ha : A.a0 with _ | a
    · rw [ha] at hacc hor h
      have hor' : x0 = (fun _ => 0) ∧ v0 = fun _ => 0 := by
        rcases hrr : A.rot <;> rw [hrr] at hor e1
        · exact absurd rfl e1
        all_goals exact hor
      obtain ⟨rfl, rfl⟩ := hor'
      simp only at hacc
      subst hacc
      revert h
      split
      · simp
      · rename_i e
        simp only [Except.ok.injEq] at e
        exact absurd e e2
      · rename_i r hne e
        simp only [Except.ok.injEq] at e
        intro h
        simp only [Except.ok.injEq] at h
        rw [← h]
        simp only [forceXYZ, Option.map_none]
        rw [← e, key]
        simp
    · rw [ha] at hacc hor h
      have hor' : A.x0 = some x0 ∧ A.v0 = some v0 := by
        rcases hrr : A.rot <;> rw [hrr] at hor e1
        · exact absurd rfl e1
        all_goals exact hor
      rw [hor'.1, hor'.2] at h
      have hacc' : initA0 (some a) = some a0 := by
        rcases a with a | a <;> simp only at hacc <;> subst hacc <;> rfl
      rw [hacc'] at h
      revert h
      split
      · simp
      · rename_i e
        simp only [Except.ok.injEq] at e
        exact absurd e e2
      · rename_i r hne e
        simp only [Except.ok.injEq] at e
        intro h
        simp only [Except.ok.injEq] at h
        rw [← h]
        simp only [forceXYZ, Option.map_some]
        rw [← e, key]
        simp [hacc']

namespace C56aux

/-- Off the axis the rectangular force that the integrators compute from the three methods is the
rectangular force. -/
theorem rect (F : Frame) (t : ℝ) (x v : Vec) (hx : 0 < x 0 ^ 2 + x 1 ^ 2) :
    EOM.rectForceV (toForce F) t x v = F.amp • forceXYZ F t x v := by
  obtain ⟨hR, h1, h2⟩ := EOM.azimuth_spec hx
  obtain ⟨hc, hs⟩ := EOM.azimuth_cos_sin hx
  set R := √(x 0 ^ 2 + x 1 ^ 2) with hRdef
  have hsq : R ^ 2 = x 0 ^ 2 + x 1 ^ 2 := Real.sq_sqrt hx.le
  have hpos : ∀ w, (⟨R, x 2, EOM.azimuth (x 0) (x 1), t, w⟩ : Input).pos = x := by
    intro w
    ext i
    fin_cases i
    · simpa [Input.pos] using h1.symm
    · simpa [Input.pos] using h2.symm
    · simp [Input.pos]
  have hvel : (⟨R, x 2, EOM.azimuth (x 0) (x 1), t,
      ![v 0 * (x 0 / R) + v 1 * (x 1 / R), -v 0 * (x 1 / R) + v 1 * (x 0 / R), v 2]⟩ : Input).vel = v := by
    ext i
    fin_cases i
    · simp only [Input.vel, hc, hs]
      simp
      field_simp
      linear_combination (-v 0) * hsq
    · simp only [Input.vel, hc, hs]
      simp
      field_simp
      linear_combination (-v 1) * hsq
    · simp [Input.vel]
  ext i
  fin_cases i
  · simp only [EOM.rectForceV, toForce, call, force, component, ← hRdef, hpos, hvel, hc, hs]
    simp
    field_simp
    linear_combination (-F.amp * forceXYZ F t x v 0) * hsq
  · simp only [EOM.rectForceV, toForce, call, force, component, ← hRdef, hpos, hvel, hc, hs]
    simp
    field_simp
    linear_combination (-F.amp * forceXYZ F t x v 1) * hsq
  · simp only [EOM.rectForceV, toForce, call, force, component, ← hRdef, hpos, hvel]
    simp

section kin
variable {Rm : ℝ → Matrix (Fin 3) (Fin 3) ℝ} {Ω Ωdot x0 v0 a0 : ℝ → Vec}

theorem entry (hK : Kinematics Rm Ω Ωdot x0 v0 a0) (s : ℝ) (i j : Fin 3) :
    HasDerivAt (fun s => Rm s i j) ((Rm s *ᵥ (Ω s ⨯₃ Pi.single j 1)) i) s := by
  have := hasDerivAt_pi.1 (hK.rate s (Pi.single j 1)) i
  refine this.congr_of_eventuallyEq (Filter.Eventually.of_forall fun u => ?_)
  simp

/-- Motion, seen from outside, of a point moving in the frame. -/
theorem outside (hK : Kinematics Rm Ω Ωdot x0 v0 a0) {y : ℝ → Vec} {y' : Vec} {s : ℝ}
    (hy : HasDerivAt y y' s) :
    HasDerivAt (fun s => Rm s *ᵥ y s) (Rm s *ᵥ (Ω s ⨯₃ y s + y')) s := by
  rw [hasDerivAt_pi] at hy ⊢
  intro i
  have h : HasDerivAt (fun s => ∑ j, Rm s i j * y s j)
      (∑ j, ((Rm s *ᵥ (Ω s ⨯₃ Pi.single j 1)) i * y s j + Rm s i j * y' j)) s :=
    HasDerivAt.fun_sum fun j _ => (entry hK s i j).mul (hy j)
  refine h.congr_deriv ?_
  simp only [cross_eq, mulVec, dotProduct, Fin.sum_univ_three]
  simp
  ring

/-- Motion, seen from the frame, of a point moving outside. -/
theorem inside (hK : Kinematics Rm Ω Ωdot x0 v0 a0) {Z : ℝ → Vec} {Z' : Vec} {s : ℝ}
    (hZ : HasDerivAt Z Z' s) :
    HasDerivAt (fun s => (Rm s)ᵀ *ᵥ Z s) ((Rm s)ᵀ *ᵥ Z' - Ω s ⨯₃ ((Rm s)ᵀ *ᵥ Z s)) s := by
  rw [hasDerivAt_pi] at hZ ⊢
  intro i
  have h : HasDerivAt (fun s => ∑ j, Rm s j i * Z s j)
      (∑ j, ((Rm s *ᵥ (Ω s ⨯₃ Pi.single i 1)) j * Z s j + Rm s j i * Z' j)) s :=
    HasDerivAt.fun_sum fun j _ => (entry hK s j i).mul (hZ j)
  refine h.congr_deriv ?_
  simp only [cross_eq, mulVec, dotProduct, Fin.sum_univ_three, Matrix.transpose_apply, Pi.sub_apply]
  fin_cases i <;> simp <;> ring

theorem cross_deriv {a b : ℝ → Vec} {a' b' : Vec} {s : ℝ} (ha : HasDerivAt a a' s) (hb : HasDerivAt b b' s) :
    HasDerivAt (fun s => a s ⨯₃ b s) (a' ⨯₃ b s + a s ⨯₃ b') s := by
  rw [hasDerivAt_pi] at ha hb ⊢
  simp only [cross_eq]
  intro i
  fin_cases i
  · exact (((ha 1).mul (hb 2)).sub ((ha 2).mul (hb 1))).congr_deriv (by simp; ring)
  · exact (((ha 2).mul (hb 0)).sub ((ha 0).mul (hb 2))).congr_deriv (by simp; ring)
  · exact (((ha 0).mul (hb 1)).sub ((ha 1).mul (hb 0))).congr_deriv (by simp; ring)

end kin
end C56aux

/-- A trajectory solves Newton's equation in the frame, with any other acceleration `g` plus the frame
force, exactly when the same motion seen from the inertial frame solves Newton's equation with `g`
alone. -/
theorem C56_inertial {A : Args} {F : Frame} (h : init A = .ok F) (hamp : A.amp = 1)
    {Ω Ωdot x0 v0 a0 : ℝ → Vec} (hA : Describes A Ω Ωdot x0 v0 a0)
    {Rm : ℝ → Matrix (Fin 3) (Fin 3) ℝ} (hK : Kinematics Rm Ω Ωdot x0 v0 a0)
    (g : ℝ → Vec → Vec → Vec) (r v : ℝ → Vec) (I : Set ℝ) (hr : ∀ s ∈ I, 0 < r s 0 ^ 2 + r s 1 ^ 2) :
    Newton (fun s x v => g s x v + EOM.rectForceV (toForce F) s x v) r v I ↔
    Newton (fun s _ _ => Rm s *ᵥ g s (r s) (v s))
      (fun s => Rm s *ᵥ (r s + x0 s))
      (fun s => Rm s *ᵥ (v s + v0 s + Ω s ⨯₃ (r s + x0 s))) I := by
  have hF : F.amp = 1 := (init_rot h).2.trans hamp
  have inv : ∀ s (w : Vec), (Rm s)ᵀ *ᵥ (Rm s *ᵥ w) = w := by
    intro s w
    rw [mulVec_mulVec, mul_eq_one_comm.1 (hK.rotation s).1, one_mulVec]
  constructor
  · intro hN s hs
    obtain ⟨h1, h2⟩ := hN s hs
    have h1' : HasDerivAt (fun s => r s + x0 s) (v s + v0 s) s := h1.add (hK.pos s)
    refine ⟨(outside hK h1').congr_deriv (by rw [add_comm (Ω s ⨯₃ (r s + x0 s))]), ?_⟩
    have h2' := (h2.add (hK.vel s)).add (cross_deriv (hK.rateDot s) h1')
    refine (outside hK h2').congr_deriv ?_
    congr 1
    simp only [rect F s _ _ (hr s hs), hF, C56_force h hA, fictitious, map_add, one_smul, Pi.add_apply]
    rw [two_smul]
    abel
  · intro hN s hs
    obtain ⟨h1, h2⟩ := hN s hs
    have k1 := (inside hK h1).sub (hK.pos s)
    have e1 : (fun s => (Rm s)ᵀ *ᵥ (Rm s *ᵥ (r s + x0 s))) - x0 = r := by
      funext u
      simp [inv]
    have h1' : HasDerivAt r (v s) s := by
      rw [e1] at k1
      refine k1.congr_deriv ?_
      rw [inv, inv]
      abel
    refine ⟨h1', ?_⟩
    have k2 := ((inside hK h2).sub (hK.vel s)).sub (cross_deriv (hK.rateDot s) (h1'.add (hK.pos s)))
    have e2 : (fun s => (Rm s)ᵀ *ᵥ (Rm s *ᵥ (v s + v0 s + Ω s ⨯₃ (r s + x0 s)))) - v0
        - (fun s => Ω s ⨯₃ ((r + x0) s)) = v := by
      funext u
      simp only [inv, Pi.sub_apply, Pi.add_apply]
      abel
    rw [e2] at k2
    refine k2.congr_deriv ?_
    simp only [rect F s _ _ (hr s hs), hF, C56_force h hA, fictitious, map_add, one_smul, inv, Pi.add_apply]
    rw [two_smul]
    abel

namespace C56aux

/-- What the constructor guarantees about the precomputed attributes. -/
inductive Good : Frame → Prop
  | none (amp : ℝ) (a0 : Option (ℝ → Vec)) : Good ⟨amp, .none, a0, none⟩
  | zConst (amp w : ℝ) (d : Option ℝ) : Good ⟨amp, .zConst w (√(w ^ 2) ^ 2) d, none, none⟩
  | zFunc (amp : ℝ) (f d : ℝ → ℝ) : Good ⟨amp, .zFunc f d, none, none⟩
  | vConst (amp : ℝ) (w : Vec) (d : Option Vec) :
    Good ⟨amp, .vConst w (norm2 w) (crossMat w) (d.map fun d => (d, crossMat d)), none, none⟩
  | vFunc (amp : ℝ) (f d : ℝ → Vec) : Good ⟨amp, .vFunc f d, none, none⟩
  | zConstA (amp w : ℝ) (d : Option ℝ) (a0 x0 v0 : ℝ → Vec) :
    Good ⟨amp, .zConst w (√(w ^ 2) ^ 2) d, some a0, some (x0, v0)⟩
  | zFuncA (amp : ℝ) (f d : ℝ → ℝ) (a0 x0 v0 : ℝ → Vec) : Good ⟨amp, .zFunc f d, some a0, some (x0, v0)⟩
  | vConstA (amp : ℝ) (w : Vec) (d : Option Vec) (a0 x0 v0 : ℝ → Vec) :
    Good ⟨amp, .vConst w (norm2 w) (crossMat w) (d.map fun d => (d, crossMat d)), some a0, some (x0, v0)⟩
  | vFuncA (amp : ℝ) (f d : ℝ → Vec) (a0 x0 v0 : ℝ → Vec) : Good ⟨amp, .vFunc f d, some a0, some (x0, v0)⟩

theorem good_of_rot {r : Rot} {st : RotSt} (h : initRot r = .ok st) :
    (st = .none ∧ r = .none) ∨ (∃ w d, st = .zConst w (√(w ^ 2) ^ 2) d) ∨ (∃ f d, st = .zFunc f d) ∨
    (∃ w d, st = .vConst w (norm2 w) (crossMat w) (Option.map (fun d => (d, crossMat d)) d)) ∨
    (∃ f d, st = .vFunc f d) := by
  match r, h with
  | .none, h => exact Or.inl ⟨by simpa [initRot] using h.symm, rfl⟩
  | .z (.const w) none, h => exact Or.inr (Or.inl ⟨w, none, by simpa [initRot] using h.symm⟩)
  | .z (.const w) (some (.const d)), h =>
    exact Or.inr (Or.inl ⟨w, some d, by simpa [initRot] using h.symm⟩)
  | .z (.func f) none, h => exact Or.inr (Or.inr (Or.inl ⟨f, _, by simpa [initRot] using h.symm⟩))
  | .z (.func f) (some (.func d)), h =>
    exact Or.inr (Or.inr (Or.inl ⟨f, d, by simpa [initRot] using h.symm⟩))
  | .vec (.const w) none, h =>
    exact Or.inr (Or.inr (Or.inr (Or.inl ⟨w, none, by simpa [initRot] using h.symm⟩)))
  | .vec (.const w) (some (.const d)), h =>
    exact Or.inr (Or.inr (Or.inr (Or.inl ⟨w, some d, by simpa [initRot] using h.symm⟩)))
  | .vec (.func f) none, h =>
    exact Or.inr (Or.inr (Or.inr (Or.inr ⟨f, _, by simpa [initRot] using h.symm⟩)))
  | .vec (.func f) (some (.func d)), h =>
    exact Or.inr (Or.inr (Or.inr (Or.inr ⟨f, d, by simpa [initRot] using h.symm⟩)))

theorem initA0_some (a : Freq Vec) : ∃ b, initA0 (some a) = some b := by
  cases a <;> exact ⟨_, rfl⟩

theorem good {A : Args} {F : Frame} (h : init A = .ok F) : Good F := by
  unfold init at h
  split at h
  · simp at h
  · simp only [Except.ok.injEq] at h
    subst h
    exact .none _ _
  · rename_i r hr e
    rcases good_of_rot e with ⟨rfl, -⟩ | ⟨w, d, rfl⟩ | ⟨f, d, rfl⟩ | ⟨w, d, rfl⟩ | ⟨f, d, rfl⟩
    · exact absurd rfl hr
    all_goals
      split at h
      · simp only [Except.ok.injEq] at h
        subst h
        constructor
      · split at h
        · simp only [Except.ok.injEq] at h
          subst h
          obtain ⟨b, hb⟩ := initA0_some ‹Freq Vec›
          rw [hb]
          constructor
        · simp at h

end C56aux

/-- Calls of the three force methods in any order and number return the components of the rectangular
force at their own inputs: the cached force is never stale. -/
theorem C56_cache (F : Frame) (l : List (Method × Input)) :
    calls F none l = l.map fun p => component p.1 F.amp p.2.R p.2.phi (forceXYZ F p.2.t p.2.pos p.2.vel) := by
  have key : ∀ (l : List (Method × Input)) (c : Cache),
      (∀ j f, c = some (j, f) → f = forceXYZ F j.t j.pos j.vel) →
      calls F c l = l.map fun p => component p.1 F.amp p.2.R p.2.phi (forceXYZ F p.2.t p.2.pos p.2.vel) := by
    intro l
    induction l with
    | nil => intro c _; rfl
    | cons p l ih =>
      obtain ⟨m, i⟩ := p
      intro c hc
      have h1 : (force F c i).1 = forceXYZ F i.t i.pos i.vel ∧
          ∀ j f, (force F c i).2 = some (j, f) → f = forceXYZ F j.t j.pos j.vel := by
        rcases c with _ | ⟨j, f⟩
        · simp only [force, Option.some.injEq, Prod.mk.injEq, true_and]
          rintro j f ⟨rfl, rfl⟩
          rfl
        · have := hc j f rfl
          by_cases hij : i = j
          · subst hij
            simp only [force, if_true]
            exact ⟨this, hc⟩
          · simp only [force, if_neg hij, Option.some.injEq, Prod.mk.injEq, true_and]
            rintro j f ⟨rfl, rfl⟩
            rfl
      simp only [calls, List.map_cons, call]
      rw [h1.1, ih _ h1.2]
  exact key l none (by simp)

/-- The C force with the functions passed as callbacks is the Python force. -/
theorem C56_C_force {A : Args} {F : Frame} (h : init A = .ok F) (t : ℝ) (x v : Vec) :
    cForceXYZ (packCallbacks F) t x v = forceXYZ F t x v := by
  rcases good h with _ | ⟨amp, w, _ | d⟩ | _ | ⟨amp, w, _ | d⟩ | _ | ⟨amp, w, _ | d, a0, x0, v0⟩ | _ |
    ⟨amp, w, _ | d, a0, x0, v0⟩ | _
  · rename_i amp a
    rcases a with _ | a <;> ext i <;> fin_cases i <;>
      simp [cForceXYZ, forceXYZ, packCallbacks, pack, packRot, tfuncs, rotTerms]
  all_goals
    ext i
    fin_cases i <;>
      simp [cForceXYZ, forceXYZ, packCallbacks, pack, packRot, tfuncs, rotTerms, cZ, cV, zTerms, vTerms,
        sqrt_sq_sq, norm2_eq, crossMat, dotProduct, Fin.sum_univ_three, Matrix.vecHead, Matrix.vecTail] <;>
      first | ring1 | (left; ring1)

namespace C56aux

theorem cForce_ne {A : CArgs} {c : Input × Vec} {i : Input} (h : i ≠ c.1) :
    cForce A c i = (cForceXYZ A i.t i.pos i.vel, (i, cForceXYZ A i.t i.pos i.vel)) := by
  unfold cForce
  rw [if_pos]
  by_contra hn
  push Not at hn
  apply h
  obtain ⟨h1, h2, h3, h4, h5, h6, h7⟩ := hn
  rcases i with ⟨R, z, p, t, v⟩
  rcases c with ⟨⟨R', z', p', t', v'⟩, f⟩
  simp only at h1 h2 h3 h4 h5 h6 h7
  have : v = v' := by
    ext k
    fin_cases k <;> assumption
  simp [*]

theorem cForce_eq {A : CArgs} {c : Input × Vec} {i : Input} (h : i = c.1) : cForce A c i = (c.2, c) := by
  unfold cForce
  rw [if_neg]
  subst h
  simp

end C56aux

/-- Any sequence of calls of the C force functions on one argument block returns what the Python methods
return, when no call is made on the axis `R = 0` (the block starts out looking like a call at the origin
at rest at time zero). -/
theorem C56_C_calls {A : Args} {F : Frame} (h : init A = .ok F) (l : List (Method × Input))
    (hl : ∀ p ∈ l, p.2.R ≠ 0) :
    cCalls (packCallbacks F) cCache0 l = calls F none l := by
  rw [C56_cache]
  have key : ∀ (l : List (Method × Input)) (c : Input × Vec), (∀ p ∈ l, p.2.R ≠ 0) →
      (c.1.R ≠ 0 → c.2 = forceXYZ F c.1.t c.1.pos c.1.vel) →
      cCalls (packCallbacks F) c l =
        l.map fun p => component p.1 F.amp p.2.R p.2.phi (forceXYZ F p.2.t p.2.pos p.2.vel) := by
    intro l
    induction l with
    | nil => intro c _ _; rfl
    | cons p l ih =>
      obtain ⟨m, i⟩ := p
      intro c hp hc
      have hi : i.R ≠ 0 := hp (m, i) (by simp)
      have hamp : (packCallbacks F).amp = F.amp := rfl
      simp only [cCalls, List.map_cons, hamp]
      by_cases hij : i = c.1
      · rw [cForce_eq hij]
        have hcR : c.1.R ≠ 0 := hij ▸ hi
        rw [ih c (fun p hp' => hp p (by simp [hp'])) hc]
        simp only [hc hcR, ← hij]
      · rw [cForce_ne hij]
        rw [ih _ (fun p hp' => hp p (by simp [hp'])) (fun _ => C56_C_force h _ _ _)]
        simp only [C56_C_force h]
  exact key l _ hl (by simp [cCache0])

/-- On the axis the start of the cache shows: with an accelerated frame the first call at the origin, at
rest, at time zero returns 0 instead of minus the acceleration. -/
theorem C56_C_first_call_fails : ∃ (A : Args) (F : Frame), init A = .ok F ∧
    cCalls (packCallbacks F) cCache0 [(.zforce, ⟨0, 0, 0, 0, 0⟩)] ≠
      calls F none [(.zforce, ⟨0, 0, 0, 0, 0⟩)] := by
  refine ⟨⟨1, .none, none, none, some (.const ![0, 0, 1])⟩,
    ⟨1, .none, some fun _ => ![0, 0, 1], none⟩, rfl, ?_⟩
  rw [C56_cache]
  simp [cCalls, cForce, cCache0, component, forceXYZ, rotTerms]

/-- With splines instead of callbacks the C force is the same at every time of the table at which each
spline takes the value of its function and the spline of `Omega` has the derivative `Omegadot`. -/
theorem C56_C_splines {A : Args} {F : Frame} (h : init A = .ok F) (tmin tmax : ℝ) (S : ℕ → ℝ → ℝ)
    (t : ℝ) (ht : tmin ≤ t ∧ t ≤ tmax)
    (hS : ∀ i, S i t = (tfuncs F).getD i (fun _ => 0) t)
    (hz : ∀ f d, F.rot = .zFunc f d → HasDerivAt (S (if F.a0.isSome then 9 else 0)) (d t) t)
    (hv : ∀ f d, F.rot = .vFunc f d → ∀ k : Fin 3,
      HasDerivAt (S ((if F.a0.isSome then 9 else 0) + k)) (d t k) t)
    (x v : Vec) : cForceXYZ (packSplines F tmin tmax S) t x v = forceXYZ F t x v := by
  rw [← C56_C_force h]
  have hc : clamp tmin tmax t = t := by
    unfold clamp
    rw [if_neg (not_lt.2 ht.1), if_neg (not_lt.2 ht.2)]
  rcases good h with _ | ⟨amp, w, _ | d⟩ | _ | ⟨amp, w, _ | d⟩ | ⟨amp, f, d⟩ | ⟨amp, w, _ | d, a0, x0, v0⟩ | _ |
    ⟨amp, w, _ | d, a0, x0, v0⟩ | ⟨amp, f, d⟩
  · rename_i amp a
    rcases a with _ | a <;> ext i <;> fin_cases i <;>
      simp [cForceXYZ, packSplines, packCallbacks, pack, packRot, hc, hS]
  case zFunc amp f d =>
    have := (hz f d rfl).deriv
    simp only [Option.isSome_none, Bool.false_eq_true, if_false] at this
    ext i
    fin_cases i <;>
      simp [cForceXYZ, packSplines, packCallbacks, pack, packRot, hc, hS, cZ, this, tfuncs]
  case zFuncA amp f d a0 x0 v0 =>
    have := (hz f d rfl).deriv
    simp only [Option.isSome_some, if_true] at this
    ext i
    fin_cases i <;>
      simp [cForceXYZ, packSplines, packCallbacks, pack, packRot, hc, hS, cZ, this, tfuncs]
  case vFunc =>
    have h0 := (hv f d rfl 0).deriv
    have h1 := (hv f d rfl 1).deriv
    have h2 := (hv f d rfl 2).deriv
    simp at h0 h1 h2
    ext i
    fin_cases i <;>
      simp [cForceXYZ, packSplines, packCallbacks, pack, packRot, hc, hS, cV, h0, h1, h2, tfuncs]
  case vFuncA a0 x0 v0 =>
    have h0 := (hv f d rfl 0).deriv
    have h1 := (hv f d rfl 1).deriv
    have h2 := (hv f d rfl 2).deriv
    simp at h0 h1 h2
    ext i
    fin_cases i <;>
      simp [cForceXYZ, packSplines, packCallbacks, pack, packRot, hc, hS, cV, h0, h1, h2, tfuncs]
  all_goals
    ext i
    fin_cases i <;>
      simp [cForceXYZ, packSplines, packCallbacks, pack, packRot, hc, hS, cZ, cV]

/-- The matrices of the C variational equations are the derivatives of the C force (times the amplitude)
with respect to position and velocity, however the time functions are evaluated. -/
theorem C56_jacobian {A : Args} {F : Frame} (h : init A = .ok F) (e : ℕ → ℝ → ℝ) (e' : ℕ → ℕ → ℝ → ℝ)
    (t : ℝ) (x v : Vec) :
    IsJacobian (fun x => F.amp • cForceXYZ (pack F e e') t x v) x (cJac (pack F e e') t).1 ∧
    IsJacobian (fun v => F.amp • cForceXYZ (pack F e e') t x v) v (cJac (pack F e e') t).2 := by
  have lin : ∀ (M : Matrix (Fin 3) (Fin 3) ℝ) (b : Vec) (f : Vec → Vec) (x : Vec),
      (∀ x, f x = M *ᵥ x + b) → IsJacobian f x M := by
    intro M b f x hf c c' u _ hc i
    have : HasDerivAt (fun s => ∑ j, M i j * c s j) (∑ j, M i j * c' j) u :=
      HasDerivAt.fun_sum fun j _ => (hc j).const_mul _
    refine (this.add_const (b i)).congr_of_eventuallyEq (Filter.Eventually.of_forall fun s => ?_)
    simp [hf, mulVec, dotProduct]
  constructor
  · apply lin _ (F.amp • cForceXYZ (pack F e e') t 0 v)
    intro x
    rcases good h with _ | ⟨amp, w, _ | d⟩ | _ | ⟨amp, w, _ | d⟩ | _ | ⟨amp, w, _ | d, a0, x0, v0⟩ | _ |
      ⟨amp, w, _ | d, a0, x0, v0⟩ | _
    · rename_i amp a
      rcases a with _ | a <;> ext i <;> fin_cases i <;> simp [cForceXYZ, cJac, pack, packRot]
    all_goals
      ext i
      fin_cases i <;>
        simp [cForceXYZ, pack, packRot, cZ, cV, cJac, sqrt_sq_sq, norm2_eq, Fin.sum_univ_three,
          Matrix.vecHead, Matrix.vecTail] <;> first | ring1 | (left; right; ring1)
  · apply lin _ (F.amp • cForceXYZ (pack F e e') t x 0)
    intro v
    rcases good h with _ | ⟨amp, w, _ | d⟩ | _ | ⟨amp, w, _ | d⟩ | _ | ⟨amp, w, _ | d, a0, x0, v0⟩ | _ |
      ⟨amp, w, _ | d, a0, x0, v0⟩ | _
    · rename_i amp a
      rcases a with _ | a <;> ext i <;> fin_cases i <;> simp [cForceXYZ, cJac, pack, packRot]
    all_goals
      ext i
      fin_cases i <;>
        simp [cForceXYZ, pack, packRot, cZ, cV, cJac, sqrt_sq_sq, norm2_eq, Fin.sum_univ_three,
          Matrix.vecHead, Matrix.vecTail] <;> ring

/-- The velocity part of the Jacobian is antisymmetric, in particular traceless: phase-space volume is
preserved. -/
theorem C56_volume (A : CArgs) (t : ℝ) :
    ((cJac A t).2)ᵀ = -(cJac A t).2 ∧ Matrix.trace (cJac A t).2 = 0 := by
  constructor
  · ext i j
    unfold cJac
    split
    · simp
    · fin_cases i <;> fin_cases j <;> simp
  · unfold cJac
    split
    · simp
    · simp [Matrix.trace, Fin.sum_univ_three]

namespace C56aux

/-- The finite difference is the derivative at a nearby time. -/
theorem fd_mean {f f' : ℝ → ℝ} {dt : ℝ} (hdt : 0 < dt) (hf : ∀ s, HasDerivAt f (f' s) s) (t : ℝ) :
    ∃ s, |s - t| < dt ∧ timeDerivative f dt t = f' s := by
  obtain ⟨s, hs, e⟩ := exists_hasDerivAt_eq_slope f f' (a := t - dt) (b := t + dt) (by linarith)
    (fun x _ => (hf x).continuousAt.continuousWithinAt) (fun x _ => hf x)
  refine ⟨s, abs_lt.2 ⟨by linarith [hs.1], by linarith [hs.2]⟩, ?_⟩
  rw [e]
  simp only [timeDerivative, smul_eq_mul]
  rw [show t + dt - (t - dt) = 2 * dt by ring]
  field_simp

end C56aux

/-- When `Omega` is a function of time and `Omegadot` is left out, the Python force is the documented one
with each component of `Omegadot` taken at a time within `1e-6` of the requested one. Missing for the full
statement: the exact time. -/
theorem C56_derived_partial (A : Args) (F : Frame) (h : init A = .ok F) (f f' : ℝ → Vec)
    (hrot : A.rot = .vec (.func f) none ∨
      ∃ w, A.rot = .z (.func w) none ∧ f = fun t => ![0, 0, w t])
    (hf : ∀ s k, HasDerivAt (fun s => f s k) (f' s k) s) (ha : A.a0 = none) (t : ℝ) (x v : Vec) :
    ∃ d : Vec, (∀ k, ∃ s, |s - t| < 1 / 10 ^ 6 ∧ d k = f' s k) ∧
      forceXYZ F t x v = fictitious (f t) d 0 0 0 x v := by
  have hdt : (0 : ℝ) < defaultDt := by norm_num [defaultDt]
  have hd : ∀ k, ∃ s, |s - t| < 1 / 10 ^ 6 ∧ timeDerivative f defaultDt t k = f' s k := by
    intro k
    obtain ⟨s, hs, e⟩ := fd_mean hdt (fun s => hf s k) t
    exact ⟨s, hs, by rw [← e]; simp [timeDerivative]⟩
  refine ⟨_, hd, ?_⟩
  unfold init at h
  rcases hrot with hr | ⟨w, hr, rfl⟩
  · simp only [hr, initRot, ha, Except.ok.injEq] at h
    subst h
    simpa [forceXYZ] using rotTerms_vf f (timeDerivative f defaultDt) none t x v
  · simp only [hr, initRot, ha, Except.ok.injEq] at h
    subst h
    have e : timeDerivative (fun t => (![0, 0, w t] : Vec)) defaultDt t =
        ![0, 0, timeDerivative w defaultDt t] := by
      ext k
      fin_cases k <;> simp [timeDerivative]
    rw [e]
    simpa [forceXYZ] using rotTerms_zf w (timeDerivative w defaultDt) none t x v

/-- The derived `Omegadot` is exact when each component of `Omega` is a polynomial of degree at most two,
and not beyond that: for `t ^ 3` it is too large by `1e-12` at every time. -/
theorem C56_derived_quadratic (a b c t : ℝ) :
    timeDerivative (fun s => a + b * s + c * s ^ 2) defaultDt t = b + 2 * c * t ∧
    timeDerivative (fun s => s ^ 3) defaultDt t = 3 * t ^ 2 + 1 / 10 ^ 12 := by
  constructor <;> simp only [timeDerivative, defaultDt, smul_eq_mul] <;> ring

/-- A position of the origin that is passed together with a rotation but without an acceleration is
silently ignored: the frame that turns about a fixed point other than the origin has no centrifugal force
at its origin. -/
theorem C56_offset_fails : ∃ (A : Args) (F : Frame) (x0 : Vec), init A = .ok F ∧
    A.x0 = some (fun _ => x0) ∧ A.v0 = some (fun _ => 0) ∧
    A.rot = .z (.const 1) none ∧ A.a0 = none ∧
    forceXYZ F 0 0 0 ≠ fictitious ![0, 0, 1] 0 x0 0 0 0 0 := by
  refine ⟨⟨1, .z (.const 1) none, some fun _ => ![1, 0, 0], some fun _ => 0, none⟩,
    ⟨1, .zConst 1 (√(1 ^ 2) ^ 2) none, none, none⟩, ![1, 0, 0], rfl, rfl, rfl, rfl, rfl, ?_⟩
  intro h
  have := congrFun h 0
  simp only [fictitious, cross_eq] at this
  simp [forceXYZ, rotTerms, zTerms] at this

/-- The documented plain list of three numbers is not accepted for `Omega`. -/
theorem C56_list_fails (amp : ℝ) (w : Vec) (x0 v0 : Option (ℝ → Vec)) (a0 : Option (Freq Vec)) :
    init ⟨amp, .list w none, x0, v0, a0⟩ = .error .notUnderstood := rfl

/-- Arguments of different kinds, and a rotating and accelerating frame without the motion of its origin,
are rejected. -/
theorem C56_rejects (amp : ℝ) (x0 v0 : Option (ℝ → Vec)) (a0 : Option (Freq Vec)) (w : Freq Vec)
    (d : Freq Vec) (r : Rot) :
    (w.isFunc ≠ d.isFunc → init ⟨amp, .vec w (some d), x0, v0, a0⟩ = .error .kind) ∧
    (∀ F, init ⟨amp, r, x0, v0, a0⟩ = .ok F → r = .none ∨ a0 = none ∨ (x0.isSome ∧ v0.isSome)) := by
  constructor
  · rcases w with w | w <;> rcases d with d | d <;> simp [Freq.isFunc, init, initRot]
  · intro F h
    unfold init at h
    split at h
    · simp at h
    · rename_i e
      rcases good_of_rot e with ⟨-, h'⟩ | ⟨w, d, h'⟩ | ⟨f, d, h'⟩ | ⟨w, d, h'⟩ | ⟨f, d, h'⟩
      · exact Or.inl h'
      all_goals simp at h'
    · rename_i q hq e
      rcases a0 with _ | a
      · exact Or.inr (Or.inl rfl)
      · rcases x0 with _ | x0
        · simp at h
        · rcases v0 with _ | v0
          · simp at h
          · simp

/-! ### Concrete cases -/

namespace C56aux

/-- Rotation about `z` by an angle. -/
def rotZ (θ : ℝ) : Matrix (Fin 3) (Fin 3) ℝ :=
  !![Real.cos θ, -Real.sin θ, 0; Real.sin θ, Real.cos θ, 0; 0, 0, 1]

/-- A frame that turns about `z` with any angle as a function of time. -/
theorem kinZ {θ w d : ℝ → ℝ} {x0 v0 a0 : ℝ → Vec} (hθ : ∀ s, HasDerivAt θ (w s) s)
    (hw : ∀ s, HasDerivAt w (d s) s) (hx : ∀ s, HasDerivAt x0 (v0 s) s) (hv : ∀ s, HasDerivAt v0 (a0 s) s) :
    Kinematics (fun s => rotZ (θ s)) (fun s => ![0, 0, w s]) (fun s => ![0, 0, d s]) x0 v0 a0 := by
  refine ⟨fun s => ⟨?_, ?_⟩, fun s u => ?_, fun s => ?_, hx, hv⟩
  · have := Real.cos_sq_add_sin_sq (θ s)
    ext i j
    fin_cases i <;> fin_cases j <;> simp [rotZ, Matrix.mul_apply, Fin.sum_univ_three] <;> nlinarith
  · have := Real.cos_sq_add_sin_sq (θ s)
    simp [rotZ, Matrix.det_fin_three]
    nlinarith
  · rw [hasDerivAt_pi]
    have hc := (hθ s).cos
    have hs := (hθ s).sin
    intro i
    simp only [cross_eq]
    fin_cases i
    · refine (((hc.mul_const (u 0)).sub (hs.mul_const (u 1))).congr_of_eventuallyEq
        (Filter.Eventually.of_forall fun s => ?_)).congr_deriv ?_
      · simp [rotZ, Matrix.vecHead, Matrix.vecTail]
        ring
      · simp [rotZ, Matrix.vecHead, Matrix.vecTail]
        ring
    · refine (((hs.mul_const (u 0)).add (hc.mul_const (u 1))).congr_of_eventuallyEq
        (Filter.Eventually.of_forall fun s => ?_)).congr_deriv ?_
      · simp [rotZ, Matrix.vecHead, Matrix.vecTail]
      · simp [rotZ, Matrix.vecHead, Matrix.vecTail]
        ring
    · refine ((hasDerivAt_const s (u 2)).congr_of_eventuallyEq
        (Filter.Eventually.of_forall fun s => ?_)).congr_deriv ?_
      · simp [rotZ, Matrix.vecHead, Matrix.vecTail]
      · simp [rotZ, Matrix.vecHead, Matrix.vecTail]
  · rw [hasDerivAt_pi]
    intro i
    fin_cases i
    · simpa using hasDerivAt_const s (0 : ℝ)
    · simpa using hasDerivAt_const s (0 : ℝ)
    · simpa using hw s

end C56aux

/-- A frame that turns faster and faster, `Omega = 2 s`, while its origin moves on a parabola; the other
force is attraction to the origin of the frame. -/
example (r v : ℝ → Vec) (I : Set ℝ) (hr : ∀ s ∈ I, 0 < r s 0 ^ 2 + r s 1 ^ 2) :
    ∃ F, init ⟨1, .z (.const 0) (some (.const 2)), some (fun s => ![s ^ 2, 3 * s, 0]),
        some (fun s => ![2 * s, 3, 0]), some (.const ![2, 0, 0])⟩ = .ok F ∧
      (Newton (fun s x v => -x + EOM.rectForceV (toForce F) s x v) r v I ↔
        Newton (fun s _ _ => rotZ (s ^ 2) *ᵥ (-r s)) (fun s => rotZ (s ^ 2) *ᵥ (r s + ![s ^ 2, 3 * s, 0]))
          (fun s => rotZ (s ^ 2) *ᵥ (v s + ![2 * s, 3, 0] + ![0, 0, 2 * s] ⨯₃ (r s + ![s ^ 2, 3 * s, 0]))) I) := by
  refine ⟨_, rfl, ?_⟩
  refine C56_inertial (A := ⟨1, .z (.const 0) (some (.const 2)), some (fun s => ![s ^ 2, 3 * s, 0]),
      some (fun s => ![2 * s, 3, 0]), some (.const ![2, 0, 0])⟩) (x0 := fun s => ![s ^ 2, 3 * s, 0]) (v0 := fun s => ![2 * s, 3, 0])
    (a0 := fun _ => ![2, 0, 0]) (Ω := fun s => ![0, 0, 2 * s]) (Ωdot := fun _ => ![0, 0, 2])
    (Rm := fun s => rotZ (s ^ 2)) rfl rfl ⟨⟨?_, rfl⟩, rfl, rfl, rfl⟩ (kinZ ?_ ?_ ?_ ?_) (fun _ x _ => -x) r v I hr
  · simp
  · intro s
    simpa using hasDerivAt_pow 2 s
  · intro s
    simpa using (hasDerivAt_id s).const_mul 2
  · intro s
    rw [hasDerivAt_pi]
    intro i
    fin_cases i
    · simpa using hasDerivAt_pow 2 s
    · simpa using (hasDerivAt_id s).const_mul 3
    · simpa using hasDerivAt_const s (0 : ℝ)
  · intro s
    rw [hasDerivAt_pi]
    intro i
    fin_cases i
    · simpa using (hasDerivAt_id s).const_mul 2
    · simpa using hasDerivAt_const s (3 : ℝ)
    · simpa using hasDerivAt_const s (0 : ℝ)

/-- Two calls at the same point in between one at another. -/
example (i j : Input) : (calls ⟨1, .zConst 1 (√(1 ^ 2) ^ 2) none, none, none⟩ none
    [(.Rforce, i), (.zforce, i), (.Rforce, j), (.phitorque, i)]).length = 4 := by
  rw [C56_cache]
  rfl

end Verif
