import Verif.Lemmas.Pot.SoftenedNeedle
import Verif.Lemmas.Pot.Ops

set_option autoImplicit false

/-!
# C01, C02, C03, C51, C71 for SoftenedNeedleBarPotential

The hypotheses `0 < z² + c²` and `0 < y² + (b + √(z² + c²))²` leave out only the unsoftened needle itself; with `c ≠ 0`
and `b ≥ 0` they hold everywhere.
-/

namespace Verif

namespace C01aux
/-- The point in the frame of the bar is off the needle. -/
def OffNeedle (p : SoftenedNeedle.Par) (R z φ t : ℝ) : Prop :=
  0 < z ^ 2 + p.c2 ∧ 0 < (R * Real.sin (φ - (p.pa + p.omegab * t))) ^ 2 + (p.b + √(z ^ 2 + p.c2)) ^ 2

theorem offNeedle {p : SoftenedNeedle.Par} (hc : 0 < p.c2) (hb : 0 ≤ p.b) (R z φ t : ℝ) : OffNeedle p R z φ t := by
  have h : 0 < z ^ 2 + p.c2 := by positivity
  have := Real.sqrt_pos.2 h
  exact ⟨h, by positivity⟩
end C01aux

/-- SoftenedNeedleBar, rotating with `omegab` at position angle `pa`. -/
theorem C01_SoftenedNeedle (p : SoftenedNeedle.Par) (amp R z φ t : ℝ) (ha : p.a ≠ 0) (h : C01aux.OffNeedle p R z φ t) :
    GradAt ((SoftenedNeedle.pot p).scale amp) R z φ t :=
  ((SoftenedNeedle.polar ha t).grad (SoftenedNeedle.cart ha) h).scale amp
example : GradAt ((SoftenedNeedle.pot ⟨4, 1/2, 1, 0.4, 1.8⟩).scale 3) 1 1 0 2 :=
  C01_SoftenedNeedle _ 3 1 1 0 2 (by norm_num) (C01aux.offNeedle (by norm_num) (by norm_num) _ _ _ _)

theorem C02_SoftenedNeedle (p : SoftenedNeedle.Par) (amp R z φ t : ℝ) (ha : p.a ≠ 0) (h : C01aux.OffNeedle p R z φ t) :
    HessAt ((SoftenedNeedle.pot p).scale amp) R z φ t :=
  ((SoftenedNeedle.polar ha t).hess (SoftenedNeedle.cart ha) h).scale amp
example : HessAt ((SoftenedNeedle.pot ⟨4, 1/2, 1, 0.4, 1.8⟩).scale 3) 1 1 0 2 :=
  C02_SoftenedNeedle _ 3 1 1 0 2 (by norm_num) (C01aux.offNeedle (by norm_num) (by norm_num) _ _ _ _)

theorem C03_SoftenedNeedle (p : SoftenedNeedle.Par) (amp R z φ t : ℝ) (ha : p.a ≠ 0) (h : C01aux.OffNeedle p R z φ t)
    (hR : R ≠ 0) : PoissonAt ((SoftenedNeedle.pot p).scale amp) R z φ t :=
  ((SoftenedNeedle.polar ha t).poisson (SoftenedNeedle.cart ha) h hR (SoftenedNeedle.dens_eq ha R z φ t h)).scale amp
example : PoissonAt ((SoftenedNeedle.pot ⟨4, 1/2, 1, 0.4, 1.8⟩).scale 3) 1 1 0 2 :=
  C03_SoftenedNeedle _ 3 1 1 0 2 (by norm_num) (C01aux.offNeedle (by norm_num) (by norm_num) _ _ _ _) (by norm_num)

/-- The C functions, called in any order on the memory that Python packs (all zeros), return the Python methods; the
planar functions are the same ones called with `z = 0`. -/
theorem C51_SoftenedNeedle (p : SoftenedNeedle.Par) (amp : ℝ) (l : List (SoftenedNeedle.Method × ℝ × ℝ × ℝ × ℝ)) :
    SoftenedNeedle.cCalls p amp {} l
      = l.map (fun c => c.1.get ((SoftenedNeedle.pot p).scale amp) c.2.1 c.2.2.1 c.2.2.2.1 c.2.2.2.2)
    ∧ ∀ R z φ t, SoftenedNeedle.cEval p amp R z φ t = ((SoftenedNeedle.pot p).scale amp).val R z φ t := by
  constructor
  · rw [SoftenedNeedle.cCalls_eq amp l SoftenedNeedle.initial_valid]
    refine List.map_congr_left fun c _ => ?_
    obtain ⟨m, R, z, φ, t⟩ := c
    cases m <;> rfl
  · exact fun R z φ t => SoftenedNeedle.cEval_eq amp R z φ t
example : SoftenedNeedle.cCalls ⟨4, 1/2, 1, 0.4, 1.8⟩ 3 {} [(.Rforce, 1, 0, 0, 0), (.zforce, 1, 0, 0, 0), (.Rforce, 2, 0, 0, 0)]
    = [((SoftenedNeedle.pot ⟨4, 1/2, 1, 0.4, 1.8⟩).scale 3).Rforce 1 0 0 0,
      ((SoftenedNeedle.pot ⟨4, 1/2, 1, 0.4, 1.8⟩).scale 3).zforce 1 0 0 0,
      ((SoftenedNeedle.pot ⟨4, 1/2, 1, 0.4, 1.8⟩).scale 3).Rforce 2 0 0 0] :=
  (C51_SoftenedNeedle _ 3 _).1

/-- Whatever was evaluated before on the same object, every method returns the value at the requested point. -/
theorem C71_SoftenedNeedle (p : SoftenedNeedle.Par) (l : List (SoftenedNeedle.Method × ℝ × ℝ × ℝ × ℝ)) :
    SoftenedNeedle.calls p {} l
      = l.map fun c => some (c.1.get (SoftenedNeedle.pot p) c.2.1 c.2.2.1 c.2.2.2.1 c.2.2.2.2) :=
  SoftenedNeedle.calls_eq l ⟨by simp, by simp⟩
example : SoftenedNeedle.calls ⟨4, 1/2, 1, 0.4, 1.8⟩ {} [(.Rforce, 1, 0, 0, 0), (.R2deriv, 1, 0, 0, 3), (.Rforce, 1, 0, 0, 3)]
    = [some ((SoftenedNeedle.pot ⟨4, 1/2, 1, 0.4, 1.8⟩).Rforce 1 0 0 0),
      some ((SoftenedNeedle.pot ⟨4, 1/2, 1, 0.4, 1.8⟩).R2deriv 1 0 0 3),
      some ((SoftenedNeedle.pot ⟨4, 1/2, 1, 0.4, 1.8⟩).Rforce 1 0 0 3)] :=
  C71_SoftenedNeedle _ _

end Verif
