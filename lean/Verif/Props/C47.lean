import Verif.Spec.Space
import Verif.Lemmas.Orbit
import Mathlib.Tactic.Linarith

set_option autoImplicit false

/-!
# C47: `Orbit.flip` reverses motion
-/

namespace Verif

open Orb Spec Real

/-- Flipping one state: same position, opposite velocity. -/
theorem C47_reverses {s : State} {x v : Fin 3 → ℝ} (h : Denotes s x v) : Denotes s.flip x (-v) := by
  cases h with
  | planar R vR vT phi =>
    have := Denotes.planar R (-vR) (-vT) phi
    have e : -(vR • ![cos phi, sin phi, 0] + vT • ![-sin phi, cos phi, 0]) =
        (-vR) • ![cos phi, sin phi, 0] + (-vT) • ![-sin phi, cos phi, 0] := by
      funext i
      fin_cases i <;> simp <;> ring
    rw [e]
    exact this
  | full R vR vT z vz phi =>
    have := Denotes.full R (-vR) (-vT) z (-vz) phi
    have e : -(vR • ![cos phi, sin phi, 0] + vT • ![-sin phi, cos phi, 0] + vz • ![0, 0, 1]) =
        (-vR) • ![cos phi, sin phi, 0] + (-vT) • ![-sin phi, cos phi, 0] + (-vz) • ![0, 0, 1] := by
      funext i
      fin_cases i <;> simp <;> ring
    rw [e]
    exact this

example : Denotes (State.fu6 1 2 3 4 5 0).flip (cyl 1 0 4)
    (-((2 : ℝ) • ![cos 0, sin 0, 0] + (3 : ℝ) • ![-sin 0, cos 0, 0] + (5 : ℝ) • ![0, 0, 1])) :=
  C47_reverses (.full ..)

/-- The entries of a row that are velocities, counted from 0: position 1 always, 2 when there is a
tangential velocity, 4 when there is a vertical one. -/
def VelocityEntry (s : State) (i : Nat) : Prop :=
  match s with
  | .lin .. => i = 1
  | .pl3 .. | .pl4 .. => i = 1 ∨ i = 2
  | .fu5 .. | .fu6 .. => i = 1 ∨ i = 2 ∨ i = 4

/-- Both variants of `flip`, for every phase-space dimension: the velocities are negated, every
other entry is kept. -/
theorem C47_entries (s : State) (i : Nat) (y : ℝ) (h : s.row[i]? = some y) :
    (VelocityEntry s i → s.flip.row[i]? = some (-y) ∧ (State.flipRow s.row)[i]? = some (-y)) ∧
    (¬VelocityEntry s i → s.flip.row[i]? = some y ∧ (State.flipRow s.row)[i]? = some y) := by
  have hi : i < 6 := by
    have := (List.getElem?_eq_some_iff.1 h).1
    cases s <;> simp [State.row] at this <;> omega
  cases s <;> interval_cases i <;>
    simp_all [State.row, State.flip, State.flipRow, VelocityEntry, List.modify]

/-- The two variants agree on every row. -/
theorem C47_variants_agree (s : State) : State.flipRow s.row = s.flip.row := by
  cases s <;> simp [State.row, State.flip, State.flipRow, List.modify]

/-- Energies do not change. -/
theorem C47_energy (pe : PotEval) (t : ℝ) (s : State) :
    energy pe t s.flip = energy pe t s ∧ energyR pe t s.flip = energyR pe t s ∧
    energyZ pe t s.flip = energyZ pe t s := by
  have h : ∀ a b, energyWith a b pe t s.flip = energyWith a b pe t s := by
    intro a b
    cases s <;> simp [energyWith, State.flip, mul_pow]
  simp [energy, energyR, energyZ, h]

/-- Angular momenta change sign (or raise in the same cases). -/
theorem C47_angular_momentum (s : State) :
    s.flip.Lz = s.Lz.map (- ·) ∧ s.flip.L = s.L.map (- ·) := by
  constructor
  · cases s <;> simp [State.flip, State.Lz, Except.map]
  · cases s <;> simp [State.flip, State.L, State.x, State.y, State.z, State.vx, State.vy, State.vz,
      Except.map, bind, Except.bind]
    refine ⟨?_, ?_, ?_⟩ <;> ring

/-- Flipping twice is the identity on states. -/
theorem C47_involution (s : State) : s.flip.flip = s := by
  cases s <;> simp [State.flip]

variable {P : Type}

/-- In place, on whole objects: flipping twice restores the object, every stored state is flipped,
and nothing else changes. -/
theorem C47_inplace (o : Orbit State P) :
    flipInplace State.flip (flipInplace State.flip o) = o ∧
    (flipInplace State.flip o).vxvv = o.vxvv.map State.flip ∧
    (flipInplace State.flip o).orbit = o.orbit.map (·.map (·.map State.flip)) ∧
    (flipInplace State.flip o).t = o.t ∧ (flipInplace State.flip o).shape = o.shape ∧
    (flipInplace State.flip o).pot = o.pot := by
  have hm : ∀ l : List State, (l.map State.flip).map State.flip = l := by
    intro l
    rw [List.map_map]
    conv_rhs => rw [← List.map_id l]
    exact List.map_congr_left fun x _ => C47_involution x
  refine ⟨?_, rfl, rfl, rfl, rfl, rfl⟩
  obtain ⟨sh, vs, t, xs, p, op, cc, n, ro, vo, rs, vos⟩ := o
  simp only [flipInplace, hm, Orbit.mk.injEq, true_and, and_true]
  cases xs with
  | none => rfl
  | some xs =>
    simp only [Option.map_some, Option.some.injEq, List.map_map]
    conv_rhs => rw [← List.map_id xs]
    exact List.map_congr_left fun x _ => hm x

/-- Not in place: the result is a fresh object with the flipped initial conditions, of the same
shape and units; flipping twice gives back the initial conditions. -/
theorem C47_new_object (o : Orbit State P) :
    (flip State.flip o).vxvv = o.vxvv.map State.flip ∧
    (flip State.flip (flip State.flip o)).vxvv = o.vxvv ∧
    (flip State.flip o).shape = o.shape ∧ (flip State.flip o).orbit = none ∧
    (flip State.flip o).t = none ∧ (flip State.flip o).ro = o.ro ∧ (flip State.flip o).vo = o.vo ∧
    (flip State.flip o).roSet = o.roSet ∧ (flip State.flip o).voSet = o.voSet := by
  refine ⟨rfl, ?_, rfl, rfl, rfl, rfl, rfl, rfl, rfl⟩
  change (o.vxvv.map State.flip).map State.flip = o.vxvv
  rw [List.map_map]
  conv_rhs => rw [← List.map_id o.vxvv]
  exact List.map_congr_left fun x _ => C47_involution x

example : (flip State.flip (Orb.new [] [State.lin 1 2] (.one 8) (.one 220) true true
    : Orbit State Unit)).vxvv = [State.lin 1 (-2)] := rfl

end Verif
