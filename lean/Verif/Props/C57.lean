import Verif.Props.C62Forms

set_option autoImplicit false

/-!
# C57: the dynamical time

`tdyn(R, t)` should be the period `2 π R √(R / M(<R, t))`.
-/

noncomputable section
namespace Verif
open Real MassQuant

/-- For a potential whose mass does not change with time the dynamical time is right at every time;
for a time-dependent potential only at `t = 0` (the time argument is not handed on). Missing: every
other time. -/
theorem C57_tdyn_partial {o : Obj} {R t M : ℝ} (hM : massOf o R none t false = .ok M)
    (hs : massOf o R none 0 false = massOf o R none t false) :
    tdynOf o R t = .ok (2 * π * R * √(R / M)) ∧
      (o.isNonAxi = false → tdynFn o R t = .ok (2 * π * R * √(R / M))) := by
  constructor
  · simp [tdynOf, hs, hM]
  · intro h
    simp [tdynFn, massFn, h, hs, hM]

/-- For a spherical potential at rest the dynamical time is the period of the circular orbit. -/
theorem C57_period {P : Pot} {M : ℝ → ℝ} (h : MassOf P M) {R : ℝ} (hR : 0 < R) (hM : 0 < M R) {o : Obj} (ho : o.pot = P)
    (hn : o.isNonAxi = false) (hm : o.mass = none) (t : ℝ) :
    tdynOf o R t = .ok (2 * π * R / PotQuant.vcirc P R 0 t) := by
  have e : massOf o R none 0 false = .ok (M R) := by
    simp [massOf, hn, massBody, hm, ho, C62_spherical h hR]
  have hv : PotQuant.vcirc P R 0 t = √(M R / R) := by
    have g := h.gauss R 0 0 t (by positivity)
    rw [gaussMass, zero_pow two_ne_zero, add_zero, sqrt_sq hR.le] at g
    rw [PotQuant.vcirc, g]
    congr 1
    field_simp
    ring
  have k : √(R / M R) = 1 / √(M R / R) := by
    rw [one_div, ← sqrt_inv, inv_div]
  rw [(C57_tdyn_partial (t := 0) e rfl).1 |> fun k' => (show tdynOf o R t = tdynOf o R 0 from rfl).trans k', hv, k]
  congr 1
  ring

/-- A growing Plummer sphere, amplitude `1 + t²` (TimeDependentAmplitudeWrapperPotential): at `t = 1`
the mass is `M`, but the dynamical time returned belongs to the mass `M / 2` of `t = 0`. -/
theorem C57_fails : ∃ o : Obj, o.pot = Wrap.modulate (fun t => 1 + t ^ 2) (Plummer.pot 1) ∧
    ∃ M, 0 < M ∧ massOf o 1 none 1 false = .ok M ∧ tdynOf o 1 1 = .ok (2 * π * √(1 / (M / 2))) ∧
      tdynOf o 1 1 ≠ .ok (2 * π * 1 * √(1 / M)) := by
  let o : Obj := ⟨Wrap.modulate (fun t => 1 + t ^ 2) (Plummer.pot 1), false, false, 1,
    some (Wrap.modulate (fun t => 1 + t ^ 2) (Plummer.pot 1)).dens, none, none⟩
  have hm : ∀ t : ℝ, massOf o 1 none t false = .ok ((1 + t ^ 2) * Plummer.mass 1 1) := by
    intro t
    have h := C62_spherical ((C04_Plummer (1 + t ^ 2) 1 one_ne_zero).1) one_pos t
    have e : gaussSphere o.pot 1 t = gaussSphere ((Plummer.pot 1).scale (1 + t ^ 2)) 1 t := rfl
    simp [massOf, o, massBody]
    exact e.trans h
  have hp : 0 < Plummer.mass 1 1 := by unfold Plummer.mass; positivity
  have ht : tdynOf o 1 1 = .ok (2 * π * 1 * √(1 / Plummer.mass 1 1)) := by
    have := (C57_tdyn_partial (hm 0) rfl).1
    have k : tdynOf o 1 1 = tdynOf o 1 0 := rfl
    rw [k]
    simpa using this
  refine ⟨o, rfl, (1 + 1 ^ 2) * Plummer.mass 1 1, by positivity, hm 1, ?_, ?_⟩
  · rw [ht]; congr 2 <;> ring_nf
  · rw [ht]
    intro k
    have k := Except.ok.inj k
    have k2 : √(1 / Plummer.mass 1 1) = √(1 / ((1 + 1 ^ 2) * Plummer.mass 1 1)) :=
      mul_left_cancel₀ (by positivity) k
    rw [sqrt_inj (by positivity) (by positivity)] at k2
    field_simp at k2
    norm_num at k2

/-- The hypotheses are met: a Hernquist sphere. -/
example (t : ℝ) : tdynOf ⟨(Hernquist.pot 1).scale 2, false, false, 2, none, none, none⟩ 1 t =
    .ok (2 * π * 1 / PotQuant.vcirc ((Hernquist.pot 1).scale 2) 1 0 t) := by
  refine C57_period (M := fun r => 2 * Hernquist.mass 1 r) (C04_Hernquist 2 1 one_pos).1 one_pos ?_ rfl rfl rfl t
  simp only [Hernquist.mass]; norm_num

end Verif
