import Verif.Spec.Space
import Mathlib.Tactic.Linarith
import Mathlib.Tactic.FieldSimp

set_option autoImplicit false

/-!
# C40: negative radius post-processing

The Python ODE integrators follow `(R, φ, z)` through `R = 0`, where `R` becomes negative. The
point they then stand for is `(R cos φ, R sin φ, z)`, moving with the derivative of that. The
theorems compare the returned state with that point.
-/

namespace Verif

open Orb Spec Real

/-- Where the solver's radius is not negative the returned state is the integrated one. -/
theorem C40_nonneg_partial (R vR phi phidot z vz : ℝ) (hR : 0 ≤ R) :
    Denotes (postFull6 R vR phi phidot z vz) (cyl R phi z) (cylVel R phi vR phidot vz) ∧
    Denotes (postPlanar4 R vR phi phidot) (cyl R phi 0) (cylVel R phi vR phidot 0) := by
  constructor
  · have := Denotes.full R vR (R * phidot) z vz phi
    rw [postFull6, if_neg (not_lt.2 hR)]
    convert this using 1
    funext i
    fin_cases i <;> simp [cylVel] <;> ring
  · have := Denotes.planar R vR (R * phidot) phi
    rw [postPlanar4, if_neg (not_lt.2 hR)]
    convert this using 1
    funext i
    fin_cases i <;> simp [cylVel] <;> ring

example : Denotes (postFull6 2 1 0 (1 / 2) 3 4) (cyl 2 0 3) (cylVel 2 0 1 (1 / 2) 4) :=
  (C40_nonneg_partial 2 1 0 (1 / 2) 3 4 (by norm_num)).1

/-- Planar orbits: the position is right for every radius. -/
theorem C40_planar_position_partial (R vR phi phidot : ℝ) :
    ∃ v, Denotes (postPlanar4 R vR phi phidot) (cyl R phi 0) v := by
  by_cases hR : R < 0
  · refine ⟨vR • ![cos (phi + π), sin (phi + π), 0] +
      (R * phidot) • ![-sin (phi + π), cos (phi + π), 0], ?_⟩
    rw [postPlanar4, if_pos hR]
    have := Denotes.planar (-R) vR (R * phidot) (phi + π)
    convert this using 1
    funext i
    fin_cases i <;> simp [cyl, cos_add_pi, sin_add_pi]
  · exact ⟨_, (C40_nonneg_partial R vR phi phidot 0 0 (not_lt.1 hR)).2⟩

/-- A state stands for one position and one velocity. -/
theorem C40aux.denotes_unique {s : State} {x v x' v' : Fin 3 → ℝ} (h : Denotes s x v)
    (h' : Denotes s x' v') : x = x' ∧ v = v' := by
  cases h <;> cases h' <;> exact ⟨rfl, rfl⟩

/-- Planar orbits, negative radius: the returned velocity is exactly the reverse of the true one. -/
theorem C40_planar_velocity_fails (R vR phi phidot : ℝ) (hR : R < 0) :
    Denotes (postPlanar4 R vR phi phidot) (cyl R phi 0) (-cylVel R phi vR phidot 0) ∧
    (vR ≠ 0 → ¬Denotes (postPlanar4 R vR phi phidot) (cyl R phi 0) (cylVel R phi vR phidot 0)) := by
  have h : Denotes (postPlanar4 R vR phi phidot) (cyl R phi 0) (-cylVel R phi vR phidot 0) := by
    rw [postPlanar4, if_pos hR]
    have := Denotes.planar (-R) vR (R * phidot) (phi + π)
    convert this using 1
    · funext i
      fin_cases i <;> simp [cyl, cos_add_pi, sin_add_pi]
    · funext i
      fin_cases i <;> simp [cylVel, cos_add_pi, sin_add_pi] <;> ring
  refine ⟨h, fun hv h' => hv ?_⟩
  have e := (C40aux.denotes_unique h h').2
  have e0 := congrFun e 0
  have e1 := congrFun e 1
  simp only [cylVel, Pi.neg_apply, Matrix.cons_val_zero, Matrix.cons_val_one] at e0 e1
  have h0 : vR * cos phi - R * sin phi * phidot = 0 := by linarith
  have h1 : vR * sin phi + R * cos phi * phidot = 0 := by linarith
  have : vR * (cos phi ^ 2 + sin phi ^ 2) = 0 := by
    linear_combination cos phi * h0 + sin phi * h1
  simpa [cos_sq_add_sin_sq] using this

/-- Full orbits, negative radius: the returned state is at height `z + π` instead of `z` and on the
other side of the axis; it never stands for the integrated position. -/
theorem C40_full_position_fails (R vR phi phidot z vz : ℝ) (hR : R < 0) :
    Denotes (postFull6 R vR phi phidot z vz) (cyl (-R) phi (z + π)) (cylVel R phi vR phidot vz) ∧
    ∀ v, ¬Denotes (postFull6 R vR phi phidot z vz) (cyl R phi z) v := by
  have h : Denotes (postFull6 R vR phi phidot z vz) (cyl (-R) phi (z + π))
      (cylVel R phi vR phidot vz) := by
    rw [postFull6, if_pos hR]
    have := Denotes.full (-R) vR (R * phidot) (z + π) vz phi
    convert this using 1
    funext i
    fin_cases i <;> simp [cylVel] <;> ring
  refine ⟨h, fun v h' => ?_⟩
  have e := congrFun (C40aux.denotes_unique h h').1 2
  simp [cyl] at e

example : ∀ v, ¬Denotes (postFull6 (-1) 2 0 1 0 0) (cyl (-1) 0 0) v :=
  (C40_full_position_fails (-1) 2 0 1 0 0 (by norm_num)).2

/-- What a state without azimuth stands for: the distance from the axis of a moving point, its rate
of change and its angular momentum about the axis. -/
def Meridional (s : State) (rho drho l : ℝ) : Prop :=
  match s with
  | .pl3 R vR vT => R = rho ∧ vR = drho ∧ R * vT = l
  | .fu5 R vR vT _ _ => R = rho ∧ vR = drho ∧ R * vT = l
  | _ => False

/-- Orbits without azimuth, positive radius: correct. -/
theorem C40_no_azimuth_partial (l R vR z vz : ℝ) (hR : 0 < R) :
    Meridional (postPlanar3 l R vR) |R| vR l ∧ Meridional (postFull5 l R vR z vz) |R| vR l := by
  rw [postPlanar3, postFull5, if_neg (not_lt.2 hR.le), if_neg (not_lt.2 hR.le), abs_of_pos hR]
  refine ⟨⟨rfl, rfl, ?_⟩, ⟨rfl, rfl, ?_⟩⟩ <;> field_simp

/-- Orbits without azimuth, negative radius: the distance `|R|` changes at the rate `-R'`, while the
returned state has rate `R'` and the angular momentum reversed. -/
theorem C40_no_azimuth_fails (l R vR z vz : ℝ) (hR : R < 0) :
    (Meridional (postPlanar3 l R vR) |R| vR (-l) ∧ Meridional (postFull5 l R vR z vz) |R| vR (-l)) ∧
    (∀ f : ℝ → ℝ, ∀ s, HasDerivAt f vR s → f s = R → HasDerivAt (fun u => |f u|) (-vR) s) ∧
    (vR ≠ 0 → ¬Meridional (postPlanar3 l R vR) |R| (-vR) l) ∧
    (l ≠ 0 → ¬Meridional (postPlanar3 l R vR) |R| (-vR) l) := by
  have h1 : -R * (l / R) = -l := by
    have : R ≠ 0 := hR.ne
    field_simp
  refine ⟨?_, ?_, ?_, ?_⟩
  · rw [postPlanar3, postFull5, if_pos hR, if_pos hR, abs_of_neg hR]
    exact ⟨⟨rfl, rfl, h1⟩, ⟨rfl, rfl, h1⟩⟩
  · intro f s hf hs
    have := (hasDerivAt_abs_neg (hs ▸ hR)).comp s hf
    exact this.congr_deriv (by simp)
  · intro hv h
    rw [postPlanar3, if_pos hR] at h
    exact hv (by linarith [h.2.1])
  · intro hl h
    rw [postPlanar3, if_pos hR] at h
    have := h.2.2
    rw [h1] at this
    exact hl (by linarith)

example : ¬Meridional (postPlanar3 1 (-2) 3) |(-2 : ℝ)| (-3) 1 :=
  (C40_no_azimuth_fails 1 (-2) 3 0 0 (by norm_num)).2.2.1 (by norm_num)

end Verif
