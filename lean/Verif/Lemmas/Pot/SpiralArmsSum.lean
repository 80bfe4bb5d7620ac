import Verif.Lemmas.Pot.SpiralArms
import Mathlib.Analysis.Calculus.Deriv.Add
import Mathlib.Algebra.BigOperators.Field

set_option autoImplicit false

noncomputable section
namespace Verif.SpiralArms
open Real Filter

variable {p : Par}

/-- The sum over the harmonics of one method of the harmonics. -/
def sm (p : Par) (f : Pot → ℝ → ℝ → ℝ → ℝ → ℝ) (R z φ t : ℝ) : ℝ :=
  ∑ i : Fin p.Cs.length, f (tpot p (p.Cs.get i) (i + 1)) R z φ t

theorem mul_total (p : Par) (a : ℝ) (f : ℝ → ℝ → ℝ) : a * total p f = total p fun C n => a * f C n := Finset.mul_sum _ _ _

theorem evaluate_eq (p : Par) : evaluate p = sm p Pot.val := by
  funext R z φ t
  simp only [evaluate, total, Finset.mul_sum, sm]
  apply Finset.sum_congr rfl; intro i _
  simp only [tpot, aV, mul_comm z]
  ring
theorem Rforce_eq (p : Par) : Rforce p = sm p Pot.Rforce := by
  funext R z φ t
  simp only [Rforce, total, Finset.mul_sum, sm]
  apply Finset.sum_congr rfl; intro i _
  simp only [tpot, aR, sech_rpow, log_sech]
  ring
theorem zforce_eq (p : Par) : zforce p = sm p Pot.zforce := by
  funext R z φ t
  simp only [zforce, total, Finset.mul_sum, sm]
  apply Finset.sum_congr rfl; intro i _
  simp only [tpot, az]
  ring
theorem phitorque_eq (p : Par) : phitorque p = sm p Pot.phitorque := by
  funext R z φ t
  simp only [phitorque, total, Finset.mul_sum, sm]
  apply Finset.sum_congr rfl; intro i _
  simp only [tpot, ap]
  ring
theorem R2deriv_eq (p : Par) : R2deriv p = sm p Pot.R2deriv := by
  funext R z φ t
  simp only [R2deriv, total, Finset.mul_sum, sm]
  apply Finset.sum_congr rfl; intro i _
  simp only [tpot, aRR, sech_rpow, log_sech]
  ring
theorem z2deriv_eq (p : Par) : z2deriv p = sm p Pot.z2deriv := by
  funext R z φ t
  simp only [z2deriv, total, Finset.mul_sum, sm]
  apply Finset.sum_congr rfl; intro i _
  simp only [tpot, azz]
  ring
theorem phi2deriv_eq (p : Par) : phi2deriv p = sm p Pot.phi2deriv := by
  funext R z φ t
  simp only [phi2deriv, total, Finset.mul_sum, sm]
  apply Finset.sum_congr rfl; intro i _
  simp only [tpot, app]
  ring
theorem Rzderiv_eq (p : Par) : Rzderiv p = sm p Pot.Rzderiv := by
  funext R z φ t
  simp only [Rzderiv, total, Finset.mul_sum, sm]
  apply Finset.sum_congr rfl; intro i _
  simp only [tpot, aRz, sech_rpow, log_sech]
  ring
theorem Rphideriv_eq (p : Par) : Rphideriv p = sm p Pot.Rphideriv := by
  funext R z φ t
  simp only [Rphideriv, total, Finset.mul_sum, sm]
  apply Finset.sum_congr rfl; intro i _
  simp only [tpot, aRp, sech_rpow, log_sech]
  ring
theorem phizderiv_eq (p : Par) : phizderiv p = sm p Pot.phizderiv := by
  funext R z φ t
  simp only [phizderiv, total, Finset.mul_sum, sm]
  apply Finset.sum_congr rfl; intro i _
  simp only [tpot, apz]
  ring

/-- What `_dens` lacks. -/
def defect (p : Par) (R z φ t : ℝ) : ℝ :=
  total p fun C n =>
    let a := K p n R * p.H / D p n R * (1 - 0.3 / (1 + 0.3 * K p n R * p.H) ^ 2);
    C / (4 * π) * (p.H / (D p n R * R)) * exp (-(R - p.r_ref) / p.Rs) / cosh (z * K p n R / B p n R) ^ B p n R
      * cos (n * gamma p R (φ - p.omega * t)) * (a - a ^ 2) / (K p n R * R)

theorem dens_eq (p : Par) : (fun R z φ t => dens p R z φ t + defect p R z φ t) = sm p Pot.dens := by
  funext R z φ t
  simp only [dens, defect, total, sm, ← Finset.sum_add_distrib]
  apply Finset.sum_congr rfl; intro i _
  simp only [tpot, cox, sech_rpow, log_sech]
  ring

/-- The potential with the density completed. -/
def potFix (p : Par) : Pot := { pot p with dens := fun R z φ t => dens p R z φ t + defect p R z φ t }

theorem potFix_eq (p : Par) : potFix p = ⟨sm p Pot.val, sm p Pot.Rforce, sm p Pot.zforce, sm p Pot.phitorque,
    sm p Pot.R2deriv, sm p Pot.z2deriv, sm p Pot.Rzderiv, sm p Pot.phi2deriv, sm p Pot.Rphideriv, sm p Pot.phizderiv,
    sm p Pot.dens⟩ := by
  simp only [potFix, pot, evaluate_eq, Rforce_eq, zforce_eq, phitorque_eq, R2deriv_eq, z2deriv_eq, Rzderiv_eq, phi2deriv_eq,
    Rphideriv_eq, phizderiv_eq, dens_eq]

theorem idx_pos (i : Fin p.Cs.length) : (0 : ℝ) < (i : ℕ) + 1 := by positivity

theorem hd_sm {ι : Type} [Fintype ι] {f : ι → ℝ → ℝ} {d : ι → ℝ} {x : ℝ}
    (h : ∀ i, HasDerivAt (f i) (-d i) x) : HasDerivAt (fun y => ∑ i, f i y) (-∑ i, d i) x := by
  rw [← Finset.sum_neg_distrib]
  exact HasDerivAt.fun_sum fun i _ => h i

theorem consistent (o : Ok p) : Consistent (potFix p) fun R _ _ => 0 < R := by
  rw [potFix_eq]
  refine Consistent.of_force ⟨fun R _ _ h => isOpen_Ioi.mem_nhds h, fun R _ _ h => Eventually.of_forall fun _ => h,
    fun R _ _ h => Eventually.of_forall fun _ => h⟩ ?_ ?_ ?_
  · intro R z φ t h
    exact ⟨hd_sm fun i => (tgrad o (idx_pos i) h z φ t).dR, hd_sm fun i => (tgrad o (idx_pos i) h z φ t).dz,
      hd_sm fun i => (tgrad o (idx_pos i) h z φ t).dphi⟩
  · intro R z φ t h
    exact ⟨hd_sm fun i => (tforce o (idx_pos i) h z φ t).RR, hd_sm fun i => (tforce o (idx_pos i) h z φ t).Rz,
      hd_sm fun i => (tforce o (idx_pos i) h z φ t).Rp, hd_sm fun i => (tforce o (idx_pos i) h z φ t).zR,
      hd_sm fun i => (tforce o (idx_pos i) h z φ t).zz, hd_sm fun i => (tforce o (idx_pos i) h z φ t).zp,
      hd_sm fun i => (tforce o (idx_pos i) h z φ t).pR, hd_sm fun i => (tforce o (idx_pos i) h z φ t).pz,
      hd_sm fun i => (tforce o (idx_pos i) h z φ t).pp⟩
  · intro R z φ t h _
    unfold PoissonAlg
    simp only [sm, Finset.mul_sum, Finset.sum_div, ← Finset.sum_sub_distrib, ← Finset.sum_add_distrib]
    exact Finset.sum_congr rfl fun i _ => tpoisson o (idx_pos i) h z φ t

theorem ok_init {N alpha r_ref phi_ref Rs H omega : ℝ} {Cs : List ℝ} (h : 0 < H * N / sin alpha) (hRs : Rs ≠ 0)
    (hr : r_ref ≠ 0) : Ok (init N alpha r_ref phi_ref Rs H omega Cs) := by
  have hs : sin alpha ≠ 0 := fun e => by simp [e] at h
  refine ⟨by simpa [init, sina] using hs, ?_, hRs, hr⟩
  simpa [init, sina, neg_div_neg_eq] using h

end Verif.SpiralArms

namespace Verif.SpiralArms
open Real

theorem defect_one {p : Par} (o : Ok p) {C R : ℝ} (hC : p.Cs = [C]) (hR : 0 < R) (z φ t : ℝ) :
    ∃ a, 0 < a ∧ a < 1 ∧ defect p R z φ t = -(a - a ^ 2) / (4 * π * R ^ 2) * evaluate p R z φ t := by
  have h := hh_pos o (n := 1) one_pos hR
  have eh : hh p 1 R = K p 1 R * p.H := by rw [K_eq o]; have := H_ne o; field_simp
  refine ⟨hh p 1 R / D p 1 R * (1 - 0.3 / (1 + 0.3 * hh p 1 R) ^ 2), ?_, ?_, ?_⟩
  · have hD := D_pos o (n := 1) one_pos hR
    refine mul_pos (div_pos h hD) ?_
    rw [sub_pos, div_lt_one (by positivity)]
    nlinarith
  · rw [D_eq o one_pos hR]
    generalize hh p 1 R = x at *
    have h1 : 0 < 0.3 * x ^ 2 + x + 1 := by positivity
    have h2 : 0 < 1 + 0.3 * x := by positivity
    rw [show x / ((0.3 * x ^ 2 + x + 1) / (0.3 * x + 1)) * (1 - 0.3 / (1 + 0.3 * x) ^ 2)
      = x * ((1 + 0.3 * x) ^ 2 - 0.3) / ((0.3 * x ^ 2 + x + 1) * (1 + 0.3 * x)) by
        have : 0.3 * x + 1 ≠ 0 := by positivity
        field_simp
        ring, div_lt_one (by positivity)]
    nlinarith
  · rw [evaluate_eq, sm, defect, total]
    simp only [tpot, aV]
    rcases p with ⟨N, al, r, ph, Rs, H, om, Cs⟩
    subst hC
    simp only [List.length_singleton, Finset.univ_unique, Fin.default_eq_zero, Finset.sum_singleton, Fin.val_zero,
      Nat.cast_zero, zero_add]
    rw [eh]
    rw [mul_assoc (0.3 : ℝ)]
    ring

end Verif.SpiralArms
