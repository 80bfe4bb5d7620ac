import Verif.Model.DF.Evolved
import Mathlib.Analysis.ODE.ExistUnique
import Mathlib.Analysis.Calculus.ContDiff.RCLike
import Mathlib.Topology.Connected.Basic

set_option autoImplicit false

/-!
# Orbits in the plane: specification and uniqueness
-/

noncomputable section
namespace Verif
open Filter Topology

namespace C83Spec

/-- The variables of the equations of motion, `(R, vR, phi, phidot)`, of `[R, vR, vT, phi]`. -/
def toY (w : Evolved.Phase) : Fin 4 → ℝ := ![w 0, w 1, w 3, w 2 / w 0]

/-- `y` solves the equations of motion of the force `F` at all times in `I`, and never is at the centre. -/
def IsOrbitOn (F : Force) (I : Set ℝ) (y : ℝ → Evolved.Phase) : Prop :=
  ∀ t ∈ I, 0 < y t 0 ∧ HasDerivAt (fun s => toY (y s)) (EOM.planar F t (toY (y t))) t

/-- Orbit integration is exact for the initial state `w` at time `s`, for the times in `I`. -/
def Exact (F : Force) (integ : Evolved.Phase → ℝ → ℝ → Evolved.Phase) (I : Set ℝ) (w : Evolved.Phase) (s : ℝ) :
    Prop :=
  integ w s s = w ∧ IsOrbitOn F I (integ w s)

/-- The right-hand side of the equations of motion is locally Lipschitz away from the centre. -/
def LocLip (F : Force) : Prop :=
  ∀ t (y : Fin 4 → ℝ), 0 < y 0 → ∃ K : NNReal, ∃ U ∈ 𝓝 y, ∀ᶠ s in 𝓝 t, LipschitzOnWith K (EOM.planar F s) U

/-- The planar force does not depend on time. -/
def Autonomous (F : Force) : Prop :=
  ∀ R φ t t' v, F.R R 0 φ t v = F.R R 0 φ t' v ∧ F.phi R 0 φ t v = F.phi R 0 φ t' v

end C83Spec

namespace C83aux
open C83Spec

theorem toY_inj {a b : Evolved.Phase} (ha : 0 < a 0) (h : toY a = toY b) : a = b := by
  have h0 : a 0 = b 0 := congrFun h 0
  have h1 : a 1 = b 1 := congrFun h 1
  have h3 : a 3 = b 3 := congrFun h 2
  have h2 : a 2 / a 0 = b 2 / b 0 := congrFun h 3
  rw [← h0, div_left_inj' ha.ne'] at h2
  funext i; fin_cases i <;> assumption

/-- A continuously differentiable right-hand side is locally Lipschitz. -/
theorem locLip_of_contDiff {F : Force}
    (h : ∀ t (y : Fin 4 → ℝ), 0 < y 0 →
      ContDiffAt ℝ 1 (fun p : ℝ × (Fin 4 → ℝ) => EOM.planar F p.1 p.2) (t, y)) : LocLip F := by
  intro t y hy
  obtain ⟨K, U, hU, hL⟩ := (h t y hy).exists_lipschitzOnWith
  rw [nhds_prod_eq, mem_prod_iff] at hU
  obtain ⟨A, hA, B, hB, hAB⟩ := hU
  refine ⟨K, B, hB, ?_⟩
  filter_upwards [hA] with s hs
  intro a ha b hb
  have := hL (hAB ⟨hs, ha⟩ : (s, a) ∈ U) (hAB ⟨hs, hb⟩ : (s, b) ∈ U)
  simpa [Prod.edist_eq] using this

theorem unique {F : Force} (hF : LocLip F) {I : Set ℝ} (hI : IsOpen I) (hc : IsPreconnected I)
    {y z : ℝ → Evolved.Phase} (hy : IsOrbitOn F I y) (hz : IsOrbitOn F I z) {s : ℝ} (hs : s ∈ I)
    (h : y s = z s) : ∀ t ∈ I, y t = z t := by
  set f : ℝ → Fin 4 → ℝ := fun t => toY (y t) with hf
  set g : ℝ → Fin 4 → ℝ := fun t => toY (z t) with hg
  have cf : ContinuousOn f I := fun t ht => (hy t ht).2.continuousAt.continuousWithinAt
  have cg : ContinuousOn g I := fun t ht => (hz t ht).2.continuousAt.continuousWithinAt
  have loc : ∀ t ∈ I, f t = g t → f =ᶠ[𝓝 t] g := by
    intro t ht e
    obtain ⟨K, U, hU, hL⟩ := hF t (f t) (hy t ht).1
    have m1 : ∀ᶠ r in 𝓝 t, r ∈ I := hI.mem_nhds ht
    have m2 : ∀ᶠ r in 𝓝 t, f r ∈ U := (hy t ht).2.continuousAt hU
    have m3 : ∀ᶠ r in 𝓝 t, g r ∈ U := (hz t ht).2.continuousAt (show U ∈ 𝓝 (g t) from e ▸ hU)
    refine ODE_solution_unique_of_eventually (v := EOM.planar F) (s := fun _ => U) (K := K) hL ?_ ?_ e
    · filter_upwards [m1, m2] with r h1 h2 using ⟨(hy r h1).2, h2⟩
    · filter_upwards [m1, m3] with r h1 h2 using ⟨(hz r h1).2, h2⟩
  have hUo : IsOpen {t | f =ᶠ[𝓝 t] g} := by
    rw [isOpen_iff_mem_nhds]
    intro t ht
    exact eventually_eventually_nhds.2 ht
  have hVo : IsOpen {t | t ∈ I ∧ f t ≠ g t} := by
    rw [isOpen_iff_mem_nhds]
    intro t ht
    have a := ((cf.continuousAt (hI.mem_nhds ht.1)).ne_iff_eventually_ne (cg.continuousAt (hI.mem_nhds ht.1))).1 ht.2
    filter_upwards [a, hI.mem_nhds ht.1] with r h1 h2 using ⟨h2, h1⟩
  have sub := hc.subset_left_of_subset_union hUo hVo
    (by
      rw [Set.disjoint_left]
      intro t h1 h2
      exact h2.2 (Filter.EventuallyEq.eq_of_nhds h1))
    (by
      intro t ht
      by_cases e : f t = g t
      · exact Or.inl (loc t ht e)
      · exact Or.inr ⟨ht, e⟩)
    ⟨s, hs, loc s hs (by simp only [hf, hg, h])⟩
  intro t ht
  exact toY_inj (hy t ht).1 (Filter.EventuallyEq.eq_of_nhds (sub ht))

theorem planar_autonomous {F : Force} (h : Autonomous F) (t t' : ℝ) (y : Fin 4 → ℝ) :
    EOM.planar F t y = EOM.planar F t' y := by
  simp only [EOM.planar]
  rw [(h _ _ t t' _).1, (h _ _ t t' _).2]

theorem shift {F : Force} (h : Autonomous F) {I : Set ℝ} {y : ℝ → Evolved.Phase} (hy : IsOrbitOn F I y) (a : ℝ) :
    IsOrbitOn F {t | t + a ∈ I} (fun t => y (t + a)) := by
  intro t ht
  refine ⟨(hy _ ht).1, ?_⟩
  rw [planar_autonomous h t (t + a)]
  exact HasDerivAt.comp_add_const t a (hy _ ht).2

end C83aux
end Verif
