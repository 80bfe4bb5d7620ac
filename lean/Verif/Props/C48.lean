import Verif.Spec.Space
import Verif.Lemmas.Orbit
import Mathlib.Tactic.Linarith

set_option autoImplicit false

/-!
# C48: energies, angular momentum and Jacobi of orbits
-/

namespace Verif

open Orb Spec Real Matrix

/-- The value `E` should add to the kinetic energy: the potential at the state's position. -/
def potentialAt (pe : PotEval) (t : ℝ) : State → Except Err ℝ
  | .lin x _ => pe.lin x t
  | .pl3 R _ _ => pe.planar R none t
  | .pl4 R _ _ phi => pe.planar R (some phi) t
  | .fu5 R _ _ z _ => pe.full R z none t
  | .fu6 R _ _ z _ phi => pe.full R z (some phi) t

/-- The rectangular accessors return the position and velocity the state stands for. -/
theorem C48_accessors {s : State} {x v : Fin 3 → ℝ} (h : Denotes s x v) :
    s.x = .ok (x 0) ∧ s.y = .ok (x 1) ∧ s.vx = .ok (v 0) ∧ s.vy = .ok (v 1) ∧
    (∀ w, s.z = .ok w → w = x 2) ∧ (∀ w, s.vz = .ok w → w = v 2) := by
  cases h <;> simp [State.x, State.y, State.vx, State.vy, State.z, State.vz, cyl] <;> ring_nf <;>
    simp

/-- `E` is kinetic energy plus potential. -/
theorem C48_energy {s : State} {x v : Fin 3 → ℝ} (h : Denotes s x v) (pe : PotEval) (t : ℝ) :
    energy pe t s = (potentialAt pe t s).map fun p => (v ⬝ᵥ v) / 2 + p := by
  have hcs := fun a => cos_sq_add_sin_sq a
  cases h with
  | planar R vR vT phi =>
    simp only [energy, energyWith, potentialAt]
    cases pe.planar R (some phi) t with
    | error e => rfl
    | ok p =>
      simp [Except.map, bind, Except.bind, dotProduct, Fin.sum_univ_three]
      linear_combination (-(vR ^ 2 + vT ^ 2) / 2) * hcs phi
  | full R vR vT z vz phi =>
    simp only [energy, energyWith, potentialAt, one_mul]
    cases pe.full R z (some phi) t with
    | error e => rfl
    | ok p =>
      simp [Except.map, bind, Except.bind, dotProduct, Fin.sum_univ_three]
      linear_combination (-(vR ^ 2 + vT ^ 2) / 2) * hcs phi

/-- Without azimuth, and in one dimension. -/
theorem C48_energy_no_azimuth (pe : PotEval) (t R vR vT z vz : ℝ) :
    energy pe t (.lin R vR) = (pe.lin R t).map (fun p => vR ^ 2 / 2 + p) ∧
    energy pe t (.pl3 R vR vT) = (pe.planar R none t).map (fun p => (vR ^ 2 + vT ^ 2) / 2 + p) ∧
    energy pe t (.fu5 R vR vT z vz) =
      (pe.full R z none t).map (fun p => (vR ^ 2 + vT ^ 2 + vz ^ 2) / 2 + p) := by
  refine ⟨?_, ?_, ?_⟩
  · simp only [energy, energyWith]
    cases pe.lin R t with
    | error e => rfl
    | ok p => simp [Except.map, bind, Except.bind]; ring
  · simp only [energy, energyWith]
    cases pe.planar R none t with
    | error e => rfl
    | ok p => simp [Except.map, bind, Except.bind]; ring
  · simp only [energy, energyWith, one_mul]
    cases pe.full R z none t with
    | error e => rfl
    | ok p => simp [Except.map, bind, Except.bind]; ring

/-- `L` is position cross velocity and `Lz` its third component. -/
theorem C48_angular_momentum {s : State} {x v : Fin 3 → ℝ} (h : Denotes s x v) :
    s.Lz = .ok ((x ⨯₃ v) 2) ∧ ∀ l, s.L = .ok l → l = x ⨯₃ v := by
  have hcs := fun a => cos_sq_add_sin_sq a
  cases h with
  | planar R vR vT phi =>
    refine ⟨?_, fun l hl => by simp [State.L] at hl⟩
    simp [State.Lz, cross_apply, cyl]
    linear_combination (-R * vT) * hcs phi
  | full R vR vT z vz phi =>
    constructor
    · simp [State.Lz, cross_apply, cyl]
      linear_combination (-R * vT) * hcs phi
    · intro l hl
      simp only [State.L, State.x, State.y, State.z, State.vx, State.vy, State.vz, bind, Except.bind,
        Except.ok.injEq] at hl
      rw [← hl]
      funext i
      fin_cases i <;> simp [cross_apply, cyl] <;> first | (left; ring) | ring

/-- `L` exists exactly for full orbits with azimuth. -/
theorem C48_L_defined (s : State) :
    (∃ l, s.L = .ok l) ↔ ∃ R vR vT z vz phi, s = .fu6 R vR vT z vz phi := by
  cases s <;> simp [State.L, State.x, State.y, State.z, State.vx, State.vy, State.vz, bind,
    Except.bind]

/-- `ER + Ez = E`, and `Ez` is zero in the plane. -/
theorem C48_split (pe : PotEval) (t : ℝ) (s : State) (er ez : ℝ) (h1 : energyR pe t s = .ok er)
    (h2 : energyZ pe t s = .ok ez) : energy pe t s = .ok (er + ez) := by
  simp only [energyR, energyZ, energy] at *
  rw [h1] at h2
  cases h : energyWith 1 1 pe t s with
  | error e => simp [h, bind, Except.bind] at h2
  | ok e =>
    simp [h, bind, Except.bind] at h2
    simp [← h2]

/-- `Ez` is zero for a state in the plane without vertical motion. -/
theorem C48_split_plane (pe : PotEval) (t R vR vT phi er : ℝ)
    (h1 : energyR pe t (.fu6 R vR vT 0 0 phi) = .ok er) :
    energyZ pe t (.fu6 R vR vT 0 0 phi) = .ok 0 := by
  have : energyWith 1 1 pe t (.fu6 R vR vT 0 0 phi) = energyWith 0 0 pe t (.fu6 R vR vT 0 0 phi) := by
    simp [energyWith]
  simp only [energyR, energyZ] at *
  rw [this, h1]
  simp [bind, Except.bind]

/-- The Jacobi integral is the energy in the frame rotating with angular velocity `Ω`: kinetic energy
of the velocity relative to that frame, the potential, and the centrifugal potential. -/
theorem C48_jacobi {s : State} {x v : Fin 3 → ℝ} (h : Denotes s x v) (om : ℝ) (pe : PotEval) (t : ℝ) :
    let w := v - ![0, 0, om] ⨯₃ x;
    let c := ![0, 0, om] ⨯₃ x;
    jacobi om pe t s = (potentialAt pe t s).map fun p => (w ⬝ᵥ w) / 2 + p - (c ⬝ᵥ c) / 2 := by
  intro w c
  have hl := (C48_angular_momentum h).1
  have he := C48_energy h pe t
  simp only [jacobi, hl, he]
  cases potentialAt pe t s with
  | error e => rfl
  | ok p =>
    simp [Except.map, bind, Except.bind, w, c, cross_apply, dotProduct, Fin.sum_univ_three,
      vecHead, vecTail]
    ring

/-- The same for a pattern speed given as a vector. -/
theorem C48_jacobi_vector {s : State} {x v l : Fin 3 → ℝ} (h : Denotes s x v) (hl : s.L = .ok l)
    (om : Fin 3 → ℝ) (pe : PotEval) (t : ℝ) :
    let w := v - om ⨯₃ x;
    let c := om ⨯₃ x;
    jacobiVec om pe t s = (potentialAt pe t s).map fun p => (w ⬝ᵥ w) / 2 + p - (c ⬝ᵥ c) / 2 := by
  intro w c
  have hl' := (C48_angular_momentum h).2 l hl
  have he := C48_energy h pe t
  simp only [jacobiVec, hl, he, hl']
  cases potentialAt pe t s with
  | error e => rfl
  | ok p =>
    simp [Except.map, bind, Except.bind, w, c, cross_apply, dotProduct, Fin.sum_univ_three,
      vecHead, vecTail]
    ring

/-- A number `Ω` and the vector `[0, 0, Ω]` give the same integral. -/
theorem C48_jacobi_agree {s : State} {x v l : Fin 3 → ℝ} (h : Denotes s x v) (hl : s.L = .ok l)
    (om : ℝ) (pe : PotEval) (t : ℝ) : jacobiVec ![0, 0, om] pe t s = jacobi om pe t s := by
  rw [C48_jacobi_vector h hl, C48_jacobi h]

/-- The pattern speed used: the one given; else that of the earliest member that has one; else 1. -/
theorem C48_pattern_speed (members : List (Option ℝ)) :
    (∀ om, patternSpeed (some om) members = om) ∧
    (∀ pre om post, members = pre ++ some om :: post → (∀ m ∈ pre, m = none) →
      patternSpeed none members = om) ∧
    ((∀ m ∈ members, m = none) → patternSpeed none members = 1) := by
  refine ⟨fun _ => rfl, ?_, ?_⟩
  · rintro pre om post rfl hp
    have : pre.findSome? id = none := by
      rw [List.findSome?_eq_none_iff]
      intro m hm
      exact hp m hm
    simp [patternSpeed, List.findSome?_append, this]
  · intro h
    have : members.findSome? id = none := by
      rw [List.findSome?_eq_none_iff]
      intro m hm
      exact h m hm
    simp [patternSpeed, this]

/-- A concrete state: all hypotheses above are met. -/
example : Denotes (.fu6 1 2 3 4 5 0) (cyl 1 0 4)
      ((2 : ℝ) • ![cos 0, sin 0, 0] + (3 : ℝ) • ![-sin 0, cos 0, 0] + (5 : ℝ) • ![0, 0, 1]) ∧
    (∃ l, (State.fu6 1 2 3 4 5 0).L = .ok l) ∧
    energyR ⟨fun _ _ => .ok 0, fun _ _ _ => .ok 0, fun R z _ _ => .ok (R + z)⟩ 0 (.fu6 1 2 3 4 5 0)
      = .ok (15 / 2) := by
  refine ⟨.full .., (C48_L_defined _).2 ⟨_, _, _, _, _, _, rfl⟩, ?_⟩
  simp [energyR, energyWith, bind, Except.bind]
  norm_num

end Verif
