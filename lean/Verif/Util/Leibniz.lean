import Mathlib.Analysis.Calculus.ParametricIntervalIntegral
import Mathlib.MeasureTheory.Integral.DominatedConvergence
import Mathlib.MeasureTheory.Integral.IntervalIntegral.FundThmCalculus

set_option autoImplicit false

/-! Differentiation under an interval integral with a jointly continuous derivative. -/

namespace Verif
open MeasureTheory Set Filter Topology

theorem leibniz {f f' : ℝ → ℝ → ℝ} (h : ∀ x y, HasDerivAt (fun x => f x y) (f' x y) x)
    (hf : ∀ x, Continuous (f x)) (hc : Continuous (Function.uncurry f')) (a b x : ℝ) :
    HasDerivAt (fun x => ∫ y in a..b, f x y) (∫ y in a..b, f' x y) x := by
  have hk : IsCompact ((Icc (x - 1) (x + 1)) ×ˢ (uIcc a b)) := isCompact_Icc.prod isCompact_uIcc
  obtain ⟨C, hC⟩ := (hk.image (hc.norm)).isBounded.subset_closedBall 0
  have hbd : ∀ u ∈ Icc (x - 1) (x + 1), ∀ y ∈ uIcc a b, ‖f' u y‖ ≤ C := by
    intro u hu y hy
    have := hC ⟨(u, y), ⟨hu, hy⟩, rfl⟩
    simpa [Function.uncurry, mem_closedBall_zero_iff] using this
  have hc' : ∀ u, Continuous (f' u) := fun u => hc.comp (Continuous.prodMk_right u)
  refine (intervalIntegral.hasDerivAt_integral_of_dominated_loc_of_deriv_le (bound := fun _ => C)
    (Icc_mem_nhds (show x - 1 < x by linarith) (show x < x + 1 by linarith)) ?_ ?_ ?_ ?_ ?_ ?_).2
  · exact Eventually.of_forall fun u => (hf u).aestronglyMeasurable
  · exact (hf x).intervalIntegrable a b
  · exact (hc' x).aestronglyMeasurable
  · exact Eventually.of_forall fun y hy u hu => hbd u hu y (uIoc_subset_uIcc hy)
  · exact intervalIntegrable_const
  · exact Eventually.of_forall fun y _ u _ => h u y

/-- The same for an integral over a box. -/
theorem leibniz₂ {f f' : ℝ → ℝ → ℝ → ℝ} (h : ∀ x y z, HasDerivAt (fun x => f x y z) (f' x y z) x)
    (hf : Continuous fun q : ℝ × ℝ × ℝ => f q.1 q.2.1 q.2.2)
    (hc : Continuous fun q : ℝ × ℝ × ℝ => f' q.1 q.2.1 q.2.2) (a b c d x : ℝ) :
    HasDerivAt (fun x => ∫ y in a..b, ∫ z in c..d, f x y z) (∫ y in a..b, ∫ z in c..d, f' x y z) x := by
  refine leibniz (f := fun x y => ∫ z in c..d, f x y z) (f' := fun x y => ∫ z in c..d, f' x y z) ?_ ?_ ?_ a b x
  · intro x y
    refine leibniz (f := fun x z => f x y z) (f' := fun x z => f' x y z) (fun x z => h x y z) ?_ ?_ c d x
    · intro x; exact hf.comp (by fun_prop : Continuous fun z : ℝ => ((x, y, z) : ℝ × ℝ × ℝ))
    · exact hc.comp (by fun_prop : Continuous fun q : ℝ × ℝ => ((q.1, y, q.2) : ℝ × ℝ × ℝ))
  · intro x
    refine intervalIntegral.continuous_parametric_intervalIntegral_of_continuous' (f := fun y z => f x y z) ?_ c d
    exact hf.comp (by fun_prop : Continuous fun q : ℝ × ℝ => ((x, q.1, q.2) : ℝ × ℝ × ℝ))
  · refine intervalIntegral.continuous_parametric_intervalIntegral_of_continuous'
      (f := fun (p : ℝ × ℝ) z => f' p.1 p.2 z) ?_ c d
    exact hc.comp (by fun_prop : Continuous fun q : (ℝ × ℝ) × ℝ => ((q.1.1, q.1.2, q.2) : ℝ × ℝ × ℝ))

end Verif
