import Verif.Props.C19
import Verif.Props.C20
import Verif.Props.C21
import Verif.Model.PotQuant
import Mathlib.LinearAlgebra.Matrix.Trace

set_option autoImplicit false

/-!
# C12: the tidal tensor is minus the rectangular Hessian
-/

open Filter Topology

namespace Verif

/-- A region that does not change under full turns in azimuth. -/
def TurnInvariant (D : Set (ℝ × ℝ × ℝ)) : Prop :=
  ∀ R z φ, ∀ k : ℤ, (R, z, φ) ∈ D → (R, z, φ + k * (2 * Real.pi)) ∈ D

/-- Points near `x` lie in the region when `x` does, although the computed azimuth jumps. -/
theorem C12aux.near {D : Set (ℝ × ℝ × ℝ)} (ho : IsOpen D) (ht : TurnInvariant D) (x : Fin 3 → ℝ)
    (h0 : 0 < x 0 ^ 2 + x 1 ^ 2) (hD : EOM.cylPoint x ∈ D) (j : Fin 3) :
    ∀ᶠ a in 𝓝 (x j), 0 < Function.update x j a 0 ^ 2 + Function.update x j a 1 ^ 2 ∧
      EOM.cylPoint (Function.update x j a) ∈ D := by
  have hq := hasDerivAt_pi.1 (hasDerivAt_update x j (x j))
  obtain ⟨hR, ex, ey⟩ := EOM.azimuth_spec h0
  obtain ⟨φ, hφ0, hφ, hRd, hR0, hev⟩ := local_polar (hq 0) (hq 1) hR (by simpa using ex)
    (by simpa using ey)
  have hc : ContinuousAt (fun a => (√(Function.update x j a 0 ^ 2 + Function.update x j a 1 ^ 2),
      Function.update x j a 2, φ a)) (x j) :=
    hRd.continuousAt.prodMk ((hq 2).continuousAt.prodMk hφ.continuousAt)
  have hm : ∀ᶠ a in 𝓝 (x j), (√(Function.update x j a 0 ^ 2 + Function.update x j a 1 ^ 2),
      Function.update x j a 2, φ a) ∈ D := by
    apply hc.eventually
    apply ho.mem_nhds
    simpa [hφ0, EOM.cylPoint] using hD
  filter_upwards [hev, hm] with a h1 h2
  have hpos : 0 < Function.update x j a 0 ^ 2 + Function.update x j a 1 ^ 2 := by
    by_contra hn
    rw [Real.sqrt_eq_zero_of_nonpos (not_lt.1 hn)] at h1
    exact lt_irrefl _ h1.1
  refine ⟨hpos, ?_⟩
  obtain ⟨_, e1, e2⟩ := EOM.azimuth_spec hpos
  obtain ⟨k, hk⟩ := angle_eq
    (mul_left_cancel₀ h1.1.ne' (e1.symm.trans h1.2.1)) (mul_left_cancel₀ h1.1.ne' (e2.symm.trans h1.2.2))
  have := ht _ _ _ k h2
  rw [← hk] at this
  exact this

/-- The matrix of the deviation equations is minus the matrix of second derivatives of the
potential as a function of rectangular coordinates. -/
theorem C12_deviation_matrix {P : Pot} {D : Set (ℝ × ℝ × ℝ)} (hP : SmoothOn P D) (hper : Periodic P)
    (hturn : TurnInvariant D) {t : ℝ} {g : (Fin 3 → ℝ) → ℝ} (hcart : IsCart P t g) (x : Fin 3 → ℝ)
    (h0 : 0 < x 0 ^ 2 + x 1 ^ 2) (hD : EOM.cylPoint x ∈ D) (i j : Fin 3) :
    HasDerivAt (fun a => deriv (fun b => g (Function.update (Function.update x j a) i b))
      (Function.update x j a i)) (-(EOM.tidal P t x i j)) (x j) := by
  refine (hd_neg (C21_jacobian hP hper t x h0 hD i j)).congr_of_eventuallyEq ?_
  filter_upwards [C12aux.near hP.isOpen hturn x h0 hD j] with a ha
  exact (C20_gradient hcart _ ha.1 (hP.grad _ _ _ _ ha.2) (hP.diff _ _ _ _ ha.2) i).deriv

theorem C12aux.methods {P : Pot} {D : Set (ℝ × ℝ × ℝ)} (hP : SmoothOn P D) (hax : Axisymmetric P)
    {R z φ φ' t : ℝ} (h : (R, z, φ) ∈ D) (h' : (R, z, φ') ∈ D) :
    P.Rforce R z φ t = P.Rforce R z φ' t ∧ P.R2deriv R z φ t = P.R2deriv R z φ' t ∧
    P.z2deriv R z φ t = P.z2deriv R z φ' t ∧ P.Rzderiv R z φ t = P.Rzderiv R z φ' t ∧
    P.phitorque R z φ t = 0 ∧ P.phi2deriv R z φ t = 0 ∧ P.Rphideriv R z φ t = 0 ∧
    P.phizderiv R z φ t = 0 := by
  have g := hP.grad R z φ t h
  have g' := hP.grad R z φ' t h'
  have k := hP.hess R z φ t h
  have k' := hP.hess R z φ' t h'
  have e : ∀ R z : ℝ, P.val R z φ t = P.val R z φ' t := fun R z => hax R z φ φ' t
  have c : ∀ R z : ℝ, (fun x => P.val R z x t) = fun _ => P.val R z φ' t :=
    fun R z => funext fun x => hax R z x φ' t
  refine ⟨?_, ?_, ?_, ?_, ?_, ?_, ?_, ?_⟩
  · have := g.dR
    simp only [e] at this
    linarith [this.unique g'.dR]
  · have := k.RR
    simp only [e] at this
    exact this.unique k'.RR
  · have := k.zz
    simp only [e] at this
    exact this.unique k'.zz
  · have := k.Rz
    simp only [e] at this
    exact this.unique k'.Rz
  · have := g.dphi
    rw [c] at this
    linarith [this.unique (hasDerivAt_const φ _)]
  · have := k.pp
    simp only [c, deriv_const] at this
    exact this.unique (hasDerivAt_const φ _)
  · have := k.pR
    simp only [c, deriv_const] at this
    exact this.unique (hasDerivAt_const R _)
  · have := k.pz
    simp only [c, deriv_const] at this
    exact this.unique (hasDerivAt_const z _)

/-- The tensor returned for an axisymmetric potential is minus the matrix of second rectangular
derivatives, each mixed one in both orders, at every azimuth. -/
theorem C12_hessian {P : Pot} {D : Set (ℝ × ℝ × ℝ)} (hP : SmoothOn P D) (hper : Periodic P)
    (hturn : TurnInvariant D) (hax : Axisymmetric P) {t : ℝ} {g : (Fin 3 → ℝ) → ℝ}
    (hcart : IsCart P t g) {R z φ : ℝ} (hR : 0 < R) (hD : (R, z, φ) ∈ D) :
    ∃ T, PotQuant.ttensor false P R z φ t = .ok T ∧ ∀ i j,
      let x : Fin 3 → ℝ := ![R * Real.cos φ, R * Real.sin φ, z];
      HasDerivAt (fun a => deriv (fun b => g (Function.update (Function.update x j a) i b))
        (Function.update x j a i)) (-(T i j)) (x j) := by
  refine ⟨PotQuant.ttensorMat P R z φ t, rfl, fun i j => ?_⟩
  intro x
  obtain ⟨h1, h2, h3⟩ := EOM.azimuth_polar (φ := φ) hR
  have h0 : 0 < x 0 ^ 2 + x 1 ^ 2 := by
    have e : (R * Real.cos φ) ^ 2 + (R * Real.sin φ) ^ 2 = R ^ 2 := by
      linear_combination R ^ 2 * Real.cos_sq_add_sin_sq φ
    change 0 < (R * Real.cos φ) ^ 2 + (R * Real.sin φ) ^ 2
    rw [e]
    positivity
  obtain ⟨k, hk⟩ := angle_eq h2 h3
  have hD' : (R, z, EOM.azimuth (R * Real.cos φ) (R * Real.sin φ)) ∈ D := by
    rw [hk]
    exact hturn _ _ _ k hD
  have hD'' : EOM.cylPoint x ∈ D := by
    simpa [EOM.cylPoint, x, h1] using hD'
  have := C12_deviation_matrix hP hper hturn hcart x h0 hD'' i j
  refine this.congr_deriv ?_
  obtain ⟨m1, m2, m3, m4, m5, m6, m7, m8⟩ := C12aux.methods (t := t) hP hax hD hD'
  obtain ⟨-, -, -, -, n5, n6, n7, n8⟩ := C12aux.methods (t := t) hP hax hD' hD
  have hne := hR.ne'
  obtain rfl | rfl | rfl : i = 0 ∨ i = 1 ∨ i = 2 := by fin_cases i <;> simp
  all_goals
    obtain rfl | rfl | rfl : j = 0 ∨ j = 1 ∨ j = 2 := by fin_cases j <;> simp
  all_goals
    simp only [EOM.tidal, PotQuant.ttensorMat, x, Matrix.cons_val_zero, Matrix.cons_val_one,
      Matrix.cons_val, h1, m1, m2, m3, m4, m5, m6, m7, n5, n6, n7, n8]
  all_goals try field_simp
  all_goals try ring

/-- The tensor is symmetric. -/
theorem C12_symmetric {nonAxi : Bool} {P : Pot} {R z φ t : ℝ} {T : Fin 3 → Fin 3 → ℝ}
    (h : PotQuant.ttensor nonAxi P R z φ t = .ok T) (i j : Fin 3) : T i j = T j i := by
  unfold PotQuant.ttensor at h
  split at h
  · cases h
  · cases h
    fin_cases i <;> fin_cases j <;> rfl

/-- Its trace is minus `4 π` times the density. -/
theorem C12_trace {nonAxi : Bool} {P : Pot} {R z φ t : ℝ} {T : Fin 3 → Fin 3 → ℝ}
    (h : PotQuant.ttensor nonAxi P R z φ t = .ok T) (hR : R ≠ 0) (hg : GradAt P R z φ t)
    (hh : HessAt P R z φ t) (hp : PoissonAt P R z φ t) :
    (Matrix.of T).trace = -(4 * Real.pi * P.dens R z φ t) := by
  unfold PotQuant.ttensor at h
  split at h
  · cases h
  · cases h
    rw [show 4 * Real.pi * P.dens R z φ t = _ from hp, hh.RR.deriv, hh.pp.deriv, hh.zz.deriv,
      hg.dR.deriv]
    simp only [Matrix.trace, Matrix.diag, Fin.sum_univ_three, Matrix.of_apply, PotQuant.ttensorMat,
      Matrix.cons_val_zero, Matrix.cons_val_one, Matrix.cons_val]
    field_simp
    linear_combination (P.Rforce R z φ t * R - P.R2deriv R z φ t * R ^ 2 - P.phi2deriv R z φ t) *
      Real.cos_sq_add_sin_sq φ

/-- For a non-axisymmetric potential nothing is returned. -/
theorem C12_nonaxi_raises (P : Pot) (R z φ t : ℝ) :
    ∃ e, PotQuant.ttensor true P R z φ t = .error e := ⟨_, rfl⟩

theorem C12aux.turn_axi {D : ℝ → ℝ → Prop} : TurnInvariant {p | D p.1 p.2.1} := fun _ _ _ _ h => h

theorem C12aux.axisymmetric_axi (v Rf zf R2 z2 Rz d : ℝ → ℝ → ℝ) :
    Axisymmetric (Pot.axi v Rf zf R2 z2 Rz d) := fun _ _ _ _ _ => rfl

example : ∃ g, IsCart (MiyamotoNagai.pot true 1 (1 / 2)) 0 g ∧ ∃ T,
    PotQuant.ttensor false (MiyamotoNagai.pot true 1 (1 / 2)) 2 (-1) 6 0 = .ok T ∧ ∀ i j,
      let x : Fin 3 → ℝ := ![2 * Real.cos 6, 2 * Real.sin 6, -1];
      HasDerivAt (fun a => deriv (fun b => g (Function.update (Function.update x j a) i b))
        (Function.update x j a i)) (-(T i j)) (x j) := by
  have hper : Periodic (MiyamotoNagai.pot true 1 (1 / 2)) := periodic_axi _ _ _ _ _ _ _
  refine ⟨_, EOM.isCart_exists hper.val 0, ?_⟩
  exact C12_hessian (MiyamotoNagai.smoothOn true 1 (1 / 2)) hper
    (fun _ _ _ _ h => h) (C12aux.axisymmetric_axi _ _ _ _ _ _ _) (EOM.isCart_exists hper.val 0)
    two_pos (by constructor <;> norm_num; positivity)

end Verif
