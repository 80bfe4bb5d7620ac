import Verif.Lemmas.Pot.SCFMass
import Verif.Lemmas.Pot.Ops

set_option autoImplicit false

/-! # SCFPotential: forces, second derivatives, density, mass, memory -/

noncomputable section
open Real

namespace Verif
open SCF

namespace C01SCFaux

/-- A static expansion with one coefficient set, used in the examples. -/
def one (a : ℝ) (N L M n l m : ℕ) : Par :=
  ⟨a, N, L, M, false, fun n' l' m' => if n' = n ∧ l' = l ∧ m' = m then 1 else 0, fun _ _ _ => 0, fun _ _ _ _ => 0, fun _ _ _ _ => 0⟩

theorem NN_pos {l m : ℕ} (h : m ≤ l) : 0 < NN l m := by
  unfold NN
  rw [if_neg (not_lt.2 h)]
  simp only []
  split_ifs <;> positivity

end C01SCFaux
open C01SCFaux

/-- SCF, forces: for every array shape and all coefficients, static or depending on time. -/
theorem C01_SCF (amp : ℝ) (p : Par) (ha : 0 < p.a) {R : ℝ} (hR : 0 < R) (z φ t : ℝ) :
    GradAt ((raw p).scale (amp / 2)) R z φ t := (SCF.grad ha hR φ t).scale _
example : GradAt ((raw (one 2 3 4 4 1 2 1)).scale (5 / 2)) 1 (1 / 2) 1 0 := C01_SCF 5 _ (by norm_num [one]) one_pos _ _ _

/-- SCF, second derivatives: everywhere for an expansion in `m = 0`, else where `(R/r)² ≥ 1e-14`. -/
theorem C02_SCF_partial (amp : ℝ) (p : Par) (ha : 0 < p.a) {R z : ℝ} (hR : 0 < R)
    (h : p.M ≤ 1 ∨ 1e-14 ≤ R ^ 2 / (R ^ 2 + z ^ 2)) (φ t : ℝ) :
    HessAt ((raw p).scale (amp / 2)) R z φ t := (SCF.hess ha hR h φ t).scale _
example : HessAt ((raw (one 2 3 4 4 1 2 1)).scale (5 / 2)) 1 (1 / 2) 1 0 :=
  C02_SCF_partial 5 _ (by norm_num [one]) one_pos (Or.inr (by norm_num)) _ _

/-- SCF, Poisson's equation. -/
theorem C03_SCF (amp : ℝ) (p : Par) (ha : 0 < p.a) {R : ℝ} (hR : 0 < R) (z φ t : ℝ) :
    PoissonAt ((raw p).scale (amp / 2)) R z φ t := (SCF.poisson ha hR φ t).scale _
example : PoissonAt ((raw (one 2 3 4 4 1 2 1)).scale (5 / 2)) 1 (1 / 2) 1 0 := C03_SCF 5 _ (by norm_num [one]) one_pos _ _ _

/-- Closer to the axis the second derivatives are those of another direction: for the expansion with the single coefficient
`l = m = 1`, at `R = 1e-8`, `z = 1`, `phi2deriv` is not the second derivative in azimuth. -/
theorem C02_SCF_fails : ∃ (p : Par) (R z φ t : ℝ), 0 < p.a ∧ 0 < R ∧ ¬ HessAt (raw p) R z φ t := by
  refine ⟨one 1 1 2 2 0 1 1, 1e-8, 1, 0, 0, by norm_num [one], by norm_num, fun h => ?_⟩
  set p := one 1 1 2 2 0 1 1 with hp
  have ha : 0 < p.a := by norm_num [hp, one]
  have hR : (0 : ℝ) < 1e-8 := by norm_num
  have e := h.pp.unique ((raw'_consistent p ha).hess 1e-8 1 0 0 hR).pp
  have hw := SHTerm.w_pos (z := 1) hR
  have hN : NN 1 1 ≠ 0 := (NN_pos le_rfl).ne'
  have hq : ∀ x, Leg.q 1 1 x = 1 := fun x => by
    have h1 : legP 1 = fun x => x := by funext x; simp [legP]
    simp [Leg.q, iteratedDeriv_one, h1]
  have halp : ∀ x, alp 1 1 x = -√(1 - x ^ 2) := fun x => by
    have : alp 1 1 x = (-1) ^ 1 * √(1 - x ^ 2) ^ 1 * Leg.q 1 1 x := rfl
    rw [this, hq]
    ring
  have hF : phiTilde 1 1 (√((1e-8 : ℝ) ^ 2 + 1 ^ 2)) 0 1 ≠ 0 := by
    rw [phiTilde_eq one_pos hw 1 one_pos]
    have : 0 < 1 + √((1e-8 : ℝ) ^ 2 + 1 ^ 2) := by positivity
    have hg : g0 1 0 1 (√((1e-8 : ℝ) ^ 2 + 1 ^ 2)) = 1 := by simp [g0, gegS, geg]
    have hW : 0 < W 1 1 (√((1e-8 : ℝ) ^ 2 + 1 ^ 2)) := by unfold W; positivity
    have h4 : 0 < √(4 * π) := by positivity
    rw [fF, hg]
    have : 0 < √(4 * π) * (W 1 1 (√((1e-8 : ℝ) ^ 2 + 1 ^ 2)) / (1 + √((1e-8 : ℝ) ^ 2 + 1 ^ 2)) * 1) := by positivity
    linarith
  have hx : (0 : ℝ) < 1 / √((1e-8 : ℝ) ^ 2 + 1 ^ 2) := by positivity
  have hx2 : (1 / √((1e-8 : ℝ) ^ 2 + 1 ^ 2)) ^ 2 = 1 / ((1e-8 : ℝ) ^ 2 + 1) := by
    rw [div_pow, SHTerm.w_sq hR]
    norm_num
  have hn : 1 < 2 ∧ |1 - 1 / √((1e-8 : ℝ) ^ 2 + 1 ^ 2) * (1 / √((1e-8 : ℝ) ^ 2 + 1 ^ 2))| < 1e-14 := by
    refine ⟨by norm_num, ?_⟩
    rw [← pow_two, hx2, abs_of_nonneg] <;> norm_num
  have hk : √((1e-8 : ℝ) * 1e-8 + 1 * 1) ≠ 0 := by positivity
  have e1 : (raw p).phi2deriv 1e-8 1 0 0 = -(NN 1 1 * alp 1 1 (1 - 1e-7) * phiTilde 1 1 (√((1e-8 : ℝ) ^ 2 + 1 ^ 2)) 0 1) := by
    simp only [raw, cyl2nd, if_neg hk, spher2nd, Coords.cyl_to_spher, if_neg hw.ne', cosθ hR, Par.sum]
    simp only [hp, one, if_pos hn, Real.sign_of_pos hx, PP, Finset.sum_range_succ, Finset.range_zero, Finset.sum_empty, Par.coef]
    norm_num
  have e2 : (raw' p).phi2deriv 1e-8 1 0 0
      = -(NN 1 1 * alp 1 1 (1 / √((1e-8 : ℝ) ^ 2 + 1 ^ 2)) * phiTilde 1 1 (√((1e-8 : ℝ) ^ 2 + 1 ^ 2)) 0 1) := by
    rw [phiTilde_eq one_pos hw 1 one_pos]
    simp only [raw', Q, Pot.fsum, SHTerm.pot, term]
    rw [← Par.sum_eq p fun n l m => fF p.a n l (√((1e-8 : ℝ) ^ 2 + 1 ^ 2)) * alp l m (1 / √((1e-8 : ℝ) ^ 2 + 1 ^ 2)) *
      (-(m : ℝ) * m * ((p.coef 0).c n l m * cos (m * 0) + (p.coef 0).s n l m * sin (m * 0)))]
    simp only [Par.sum, hp, one, Finset.sum_range_succ, Finset.range_zero, Finset.sum_empty, Par.coef]
    norm_num
    ring
  rw [e1, e2, neg_inj] at e
  have e3 := mul_left_cancel₀ hN (mul_right_cancel₀ hF e)
  rw [halp, halp, neg_inj, hx2] at e3
  rw [sqrt_inj (by norm_num) (by norm_num)] at e3
  norm_num at e3

/-- The second derivative of the Legendre functions computed for scipy older than 1.15 is the second derivative. -/
theorem C02_SCF_oldscipy (l m : ℕ) {x : ℝ} (h : 1e-14 ≤ 1 - x ^ 2) :
    ∃ D : ℝ → ℝ, (∀ᶠ y in nhds x, HasDerivAt (PP l m) (D y) y) ∧ HasDerivAt D (d2PPold l m x) x := by
  have hx : x ^ 2 < 1 := by
    have : (0 : ℝ) < 1e-14 := by norm_num
    linarith
  refine ⟨dPP l m, (Leg.open_x hx).mono fun y hy => ?_, ?_⟩
  · exact (Leg.alp_deriv l m hy).differentiableAt.hasDerivAt
  · rw [d2PPold_eq h]
    exact (Leg.deriv_alp_deriv l m hx).differentiableAt.hasDerivAt
example : ∃ D : ℝ → ℝ, (∀ᶠ y in nhds (1 / 2 : ℝ), HasDerivAt (PP 5 3) (D y) y) ∧ HasDerivAt D (d2PPold 5 3 (1 / 2)) (1 / 2) :=
  C02_SCF_oldscipy 5 3 (by norm_num)

/-- SCF: `mass(R)` is the integral of the density over the ball of radius `R`. -/
theorem C62_SCF (amp : ℝ) (p : Par) (ha : 0 < p.a) (hL : 0 < p.L) (hM : 0 < p.M) {R : ℝ} (hR : 0 < R) (t : ℝ) :
    amp / 2 * mass p (p.coef t) R = ∫ r in (0 : ℝ)..R, ∫ θ in (0 : ℝ)..π, ∫ φ in (0 : ℝ)..(2 * π),
      ((raw p).scale (amp / 2)).dens (r * sin θ) (r * cos θ) φ t * (r ^ 2 * sin θ) := by
  simp only [Pot.scale, mul_assoc, intervalIntegral.integral_const_mul]
  rw [mass_eq ha hL hM hR t]
example : 5 / 2 * mass (one 2 3 4 4 1 0 0) ((one 2 3 4 4 1 0 0).coef 0) 3
    = ∫ r in (0 : ℝ)..3, ∫ θ in (0 : ℝ)..π, ∫ φ in (0 : ℝ)..(2 * π),
      ((raw (one 2 3 4 4 1 0 0)).scale (5 / 2)).dens (r * sin θ) (r * cos θ) φ 0 * (r ^ 2 * sin θ) :=
  C62_SCF 5 _ (by norm_num [one]) (by norm_num [one]) (by norm_num [one]) (by norm_num) 0

/-- Whatever was evaluated before on the same object, at whatever times, every call returns what it returns on a new object,
which is the value of that method at that point and time. -/
theorem C71_SCF (p : Par) (init : Coef) (l : List (Method × ℝ × ℝ × ℝ × ℝ)) :
    (run p (start p init) l = l.map fun c => (call p (start p init) c.1 c.2.1 c.2.2.1 c.2.2.2.1 c.2.2.2.2).2)
    ∧ ∀ R z φ t, (call p (start p init) .val R z φ t).2 = (raw p).val R z φ t
      ∧ (call p (start p init) .dens R z φ t).2 = (raw p).dens R z φ t
      ∧ (call p (start p init) .Rforce R z φ t).2 = (raw p).Rforce R z φ t
      ∧ (call p (start p init) .zforce R z φ t).2 = (raw p).zforce R z φ t
      ∧ (call p (start p init) .phitorque R z φ t).2 = (raw p).phitorque R z φ t
      ∧ (call p (start p init) (.d2 .R2) R z φ t).2 = (raw p).R2deriv R z φ t
      ∧ (call p (start p init) (.d2 .z2) R z φ t).2 = (raw p).z2deriv R z φ t
      ∧ (call p (start p init) (.d2 .Rz) R z φ t).2 = (raw p).Rzderiv R z φ t
      ∧ (call p (start p init) (.d2 .phi2) R z φ t).2 = (raw p).phi2deriv R z φ t
      ∧ (call p (start p init) (.d2 .Rphi) R z φ t).2 = (raw p).Rphideriv R z φ t
      ∧ (call p (start p init) (.d2 .phiz) R z φ t).2 = (raw p).phizderiv R z φ t := by
  have i := start_inv p init
  refine ⟨?_, fun R z φ t => ⟨(call_inv i _ R z φ t).2, (call_inv i _ R z φ t).2, (call_inv i _ R z φ t).2, (call_inv i _ R z φ t).2,
    (call_inv i _ R z φ t).2, (call_inv i _ R z φ t).2, (call_inv i _ R z φ t).2, (call_inv i _ R z φ t).2,
    (call_inv i _ R z φ t).2, (call_inv i _ R z φ t).2, (call_inv i _ R z φ t).2⟩⟩
  rw [run_eq l i]
  exact List.map_congr_left fun c _ => (call_inv i c.1 c.2.1 c.2.2.1 c.2.2.2.1 c.2.2.2.2).2.symm
example (p : Par) (init : Coef) : run p (start p init) [(.Rforce, 1, 0, 0, 0), (.dens, 1, 0, 0, 5), (.Rforce, 1, 0, 0, 0)]
    = [(raw p).Rforce 1 0 0 0, (raw p).dens 1 0 0 5, (raw p).Rforce 1 0 0 0] := by
  rw [(C71_SCF p init _).1]
  simp [(C71_SCF p init []).2]

end Verif
