import Verif.Model.Normalize
import Verif.Lemmas.Pot.MiyamotoNagai
import Verif.Lemmas.Pot.TwoPower
import Verif.Lemmas.Pot.PowerSphericalCutoff
import Mathlib.Data.Real.Sign

set_option autoImplicit false

/-!
# C72: `normalize` and the Milky-Way models built with it
-/

noncomputable section
namespace Verif
open Normalize Real Set

namespace C72aux
theorem sum_Rforce (l : List Pot) (R z φ t : ℝ) : (Pot.sum l).Rforce R z φ t = (l.map fun P => P.Rforce R z φ t).sum := by
  induction l with
  | nil => rfl
  | cons P l ih => simp only [List.map_cons, List.sum_cons, ← ih]; rfl

theorem nfw {a : ℝ} (ha : 0 < a) : (NFW.pot a).Rforce 1 0 0 0 < 0 := by
  simp only [NFW.pot, Pot.axi, NFW.Rforce]
  norm_num
  have h : 1 / (a + 1) < log (1 + 1 / a) := by
    have hx : 0 < 1 / a := by positivity
    have := Real.log_lt_sub_one_of_pos (x := (1 + 1 / a)⁻¹) (by positivity)
      (by rw [ne_eq, inv_eq_one]; linarith)
    rw [log_inv] at this
    have e : (1 + 1 / a)⁻¹ - 1 = -(1 / (a + 1)) := by field_simp; ring
    linarith
  rw [one_div, one_div] at h
  linarith
theorem mn {a b : ℝ} (s : Bool) (h : 0 < 1 + (a + |b|) ^ 2) : (MiyamotoNagai.pot s a b).Rforce 1 0 0 0 < 0 := by
  simp only [MiyamotoNagai.pot, Pot.axi, MiyamotoNagai.Rforce]
  norm_num
  rw [neg_div, neg_lt_zero]
  have : 0 < 1 + (a + √(b ^ 2)) ^ 2 := by positivity
  positivity
theorem psc {α rc : ℝ} (h : α < 3) (hc : 0 < rc) : (PowerSphCut.pot α rc).Rforce 1 0 0 0 < 0 := by
  simp only [PowerSphCut.pot, Pot.axi, PowerSphCut.Rforce]
  norm_num
  rw [PowerSphCut.mass_eq h hc one_pos, PowerSphCut.massG]
  have := lowerGamma_pos (PowerSphCut.s_pos h) (by positivity : 0 < (1 / rc) ^ 2)
  positivity
theorem hern {a : ℝ} (ha : 0 < a) : (Hernquist.pot a).Rforce 1 0 0 0 < 0 := by
  simp only [Hernquist.pot, Pot.axi, Hernquist.Rforce]
  norm_num
  rw [neg_div, neg_div, neg_div, neg_div]
  have : 0 < 1 / a / (1 + 1 / a) ^ 2 / 2 / a := by positivity
  simp only [one_div] at this ⊢
  linarith
end C72aux
open C72aux

/-- After `normalize(norm)` the radial force at `R = 1, z = 0` has the requested size and the sign it had. -/
theorem C72_normalize (P : Pot) {amp : ℝ} (norm : ℝ) (h : (P.scale amp).Rforce 1 0 0 0 ≠ 0) :
    (P.scale (normAmp P norm amp)).Rforce 1 0 0 0 = Real.sign ((P.scale amp).Rforce 1 0 0 0) * norm := by
  have e : (P.scale (normAmp P norm amp)).Rforce 1 0 0 0
      = (P.scale amp).Rforce 1 0 0 0 * (norm / |(P.scale amp).Rforce 1 0 0 0|) := by
    simp only [normAmp, Pot.scale]; ring
  rw [e]
  generalize (P.scale amp).Rforce 1 0 0 0 = f at h
  rcases lt_or_gt_of_ne h with k | k
  · rw [Real.sign_of_neg k, abs_of_neg k]; field_simp
  · rw [Real.sign_of_pos k, abs_of_pos k]; field_simp
example : ((NFW.pot 2).scale (normAmp (NFW.pot 2) 0.35 7)).Rforce 1 0 0 0 = -0.35 := by
  have h : ((NFW.pot 2).scale 7).Rforce 1 0 0 0 < 0 := mul_neg_of_pos_of_neg (by norm_num) (nfw two_pos)
  rw [C72_normalize _ _ h.ne, Real.sign_of_neg h]; norm_num

/-- For an attractive potential the circular velocity at `R = 1` becomes the square root of `norm`: 1 for `normalize=True`,
whatever amplitude was given. -/
theorem C72_vcirc {P : Pot} {amp norm : ℝ} (ha : 0 < amp) (hP : P.Rforce 1 0 0 0 < 0) (hn : 0 ≤ norm) :
    PotQuant.vcirc (P.scale (init P amp (.num norm))) 1 0 0 ^ 2 = norm ∧
    PotQuant.vcirc (P.scale (init P amp (.bool true))) 1 0 0 = 1 := by
  have h : (P.scale amp).Rforce 1 0 0 0 < 0 := mul_neg_of_pos_of_neg ha hP
  have key : ∀ n, (P.scale (normAmp P n amp)).Rforce 1 0 0 0 = -n := fun n => by
    rw [C72_normalize P n h.ne, Real.sign_of_neg h]; ring
  constructor
  · simp only [PotQuant.vcirc, init, key]
    rw [sq_sqrt (by linarith)]; ring
  · simp only [PotQuant.vcirc, init, key]; norm_num
example : PotQuant.vcirc ((NFW.pot 2).scale (init (NFW.pot 2) 5 (.bool true))) 1 0 0 = 1 :=
  (C72_vcirc (by norm_num) (nfw two_pos) zero_le_one).2

/-- Only the amplitude changes, by one factor for every method, point and time; without the argument nothing does. -/
theorem C72_shape {P : Pot} {amp norm : ℝ} (h : (P.scale amp).Rforce 1 0 0 0 ≠ 0) (hn : 0 < norm) :
    init P amp (.bool false) = amp ∧
    ∃ k, 0 < k ∧ P.scale (init P amp (.num norm)) = (P.scale amp).scale k := by
  refine ⟨rfl, norm / |(P.scale amp).Rforce 1 0 0 0|, div_pos hn (abs_pos.2 h), ?_⟩
  simp only [init, normAmp, Pot.scale, Pot.mk.injEq]
  refine ⟨?_, ?_, ?_, ?_, ?_, ?_, ?_, ?_, ?_, ?_, ?_⟩ <;> funext R z φ t <;> ring

/-- Normalizing again forgets the earlier normalization and amplitude. -/
theorem C72_last {P : Pot} {amp amp' : ℝ} (n : ℝ) (ha : 0 < amp) (ha' : 0 < amp') (hP : P.Rforce 1 0 0 0 ≠ 0) :
    normAmp P n amp = normAmp P n amp' ∧ ∀ n1, 0 < n1 → normAmp P n (normAmp P n1 amp) = normAmp P n amp := by
  have key : ∀ a, 0 < a → normAmp P n a = n / |P.Rforce 1 0 0 0| := by
    intro a h
    have := abs_pos.2 hP
    simp only [normAmp, Pot.scale, abs_mul, abs_of_pos h]
    field_simp
  refine ⟨(key _ ha).trans (key _ ha').symm, fun n1 h1 => ?_⟩
  rw [key _ ha]
  refine key _ ?_
  have : 0 < |(P.scale amp).Rforce 1 0 0 0| := abs_pos.2 (mul_ne_zero ha.ne' hP)
  unfold normAmp
  positivity
example : normAmp (NFW.pot 2) 0.5 (normAmp (NFW.pot 2) 3 1) = normAmp (NFW.pot 2) 0.5 1 :=
  (C72_last 0.5 one_pos one_pos (nfw two_pos).ne).2 3 (by norm_num)

/-- In a combination of normalized attractive potentials the squared circular velocity at `R = 1` is the sum of the norms,
and each member contributes its own. -/
theorem C72_composite (l : List (Pot × ℝ × ℝ)) (h : ∀ q ∈ l, q.1.Rforce 1 0 0 0 < 0 ∧ 0 < q.2.1 ∧ 0 ≤ q.2.2) :
    PotQuant.vcirc (composite (l.map fun q => member q.1 q.2.1 q.2.2)) 1 0 0 ^ 2 = (l.map fun q => q.2.2).sum ∧
    ∀ q ∈ l, 1 * -(q.1.scale (member q.1 q.2.1 q.2.2).2).Rforce 1 0 0 0 = q.2.2 := by
  have key : ∀ q ∈ l, (q.1.scale (member q.1 q.2.1 q.2.2).2).Rforce 1 0 0 0 = -q.2.2 := by
    intro q hq
    obtain ⟨h1, h2, _⟩ := h q hq
    have hf : (q.1.scale q.2.1).Rforce 1 0 0 0 < 0 := mul_neg_of_pos_of_neg h2 h1
    simp only [member, init]
    rw [C72_normalize _ _ hf.ne, Real.sign_of_neg hf]; ring
  have hs : (composite (l.map fun q => member q.1 q.2.1 q.2.2)).Rforce 1 0 0 0 = -(l.map fun q => q.2.2).sum := by
    unfold composite
    rw [sum_Rforce, List.map_map, List.map_map]
    have e : ∀ l : List (Pot × ℝ × ℝ), -(l.map fun q => q.2.2).sum = (l.map fun q => -q.2.2).sum := by
      intro l
      induction l with
      | nil => simp
      | cons q l ih => simp only [List.map_cons, List.sum_cons, ← ih]; ring
    rw [e]
    exact congrArg List.sum (List.map_congr_left fun q hq => key q hq)
  have h0 : 0 ≤ (l.map fun q => q.2.2).sum := List.sum_nonneg fun x hx => by
    obtain ⟨q, hq, rfl⟩ := List.mem_map.1 hx
    exact (h q hq).2.2
  refine ⟨?_, fun q hq => by rw [key q hq]; ring⟩
  rw [PotQuant.vcirc, hs, neg_neg, one_mul, sq_sqrt h0]

/-- The circular velocity of `MWPotential2014` at `R = 1` is 1, of which 5% is the bulge's, 60% the disk's and 35% the
halo's squared velocity; the same for the earlier model. -/
theorem C72_MWPotential2014 : PotQuant.vcirc MWPotential2014 1 0 0 = 1 ∧ PotQuant.vcirc MWPotentialOld 1 0 0 = 1 := by
  have one : ∀ x : ℝ, 0 ≤ x → x ^ 2 = 1 → x = 1 := fun x h0 h => by nlinarith
  constructor
  · refine one _ (sqrt_nonneg _) ?_
    have := (C72_composite [(PowerSphCut.pot 1.8 (1.9 / 8), PowerSphCut.initAmp 1 1 1.8, 0.05),
      (MiyamotoNagai.pot true (3 / 8) (0.28 / 8), 1, 0.6), (NFW.pot 2, 1, 0.35)] ?_).1
    · refine this.trans ?_
      norm_num
    · intro q hq
      simp only [List.mem_cons, List.mem_nil_iff, or_false] at hq
      rcases hq with rfl | rfl | rfl
      · exact ⟨psc (by norm_num) (by norm_num), by simp [PowerSphCut.initAmp], by norm_num⟩
      · exact ⟨mn _ (by positivity), one_pos, by norm_num⟩
      · exact ⟨nfw two_pos, one_pos, by norm_num⟩
  · refine one _ (sqrt_nonneg _) ?_
    have := (C72_composite [(MiyamotoNagai.pot true 0.5 0.0375, 1, 0.6), (NFW.pot 4.5, 1, 0.35),
      (Hernquist.pot (0.6 / 8), 1, 0.05)] ?_).1
    · refine this.trans ?_
      norm_num
    · intro q hq
      simp only [List.mem_cons, List.mem_nil_iff, or_false] at hq
      rcases hq with rfl | rfl | rfl
      · exact ⟨mn _ (by positivity), one_pos, by norm_num⟩
      · exact ⟨nfw (by norm_num), one_pos, by norm_num⟩
      · exact ⟨hern (by norm_num), one_pos, by norm_num⟩

/-- `MWPotential2014` as a whole: forces, second derivatives and density belong to one potential everywhere off the centre. -/
theorem C72_MWPotential2014_consistent (R z φ t : ℝ) (h : 0 < R ^ 2 + z ^ 2) :
    GradAt MWPotential2014 R z φ t ∧ HessAt MWPotential2014 R z φ t ∧ (R ≠ 0 → PoissonAt MWPotential2014 R z φ t) := by
  have c : Consistent MWPotential2014 (Spherical.Dom (Ioi 0)) := by
    refine Consistent.sum (Spherical.Dom.axisOpen isOpen_Ioi) fun P hP => ?_
    simp only [List.map_cons, List.map_nil, List.mem_cons, List.mem_nil_iff, or_false] at hP
    rcases hP with rfl | rfl | rfl
    · exact (PowerSphCut.consistent (by norm_num) (by norm_num)).scale _
    · have m := (MiyamotoNagai.consistent true (3 / 8) (0.28 / 8)).scale
        (member (MiyamotoNagai.pot true (3 / 8) (0.28 / 8)) 1 0.6).2
      exact ⟨fun R z φ t _ => m.grad R z φ t ⟨by positivity, by positivity⟩,
        fun R z φ t _ => m.hess R z φ t ⟨by positivity, by positivity⟩,
        fun R z φ t _ => m.poisson R z φ t ⟨by positivity, by positivity⟩⟩
    · exact (NFW.consistent two_pos).scale _
  have d : Spherical.Dom (Ioi 0) R z φ := sqrt_pos.2 h
  exact ⟨c.grad R z φ t d, c.hess R z φ t d, c.poisson R z φ t d⟩
example : PoissonAt MWPotential2014 1 0 0 0 := (C72_MWPotential2014_consistent 1 0 0 0 (by norm_num)).2.2 one_ne_zero

/-- Two halos. -/
example : ∃ k, 0 < k ∧ (NFW.pot 2).scale (init (NFW.pot 2) 7 (.num 0.35)) = ((NFW.pot 2).scale 7).scale k :=
  (C72_shape (mul_neg_of_pos_of_neg (by norm_num : (0 : ℝ) < 7) (nfw two_pos)).ne (by norm_num)).2
example : PotQuant.vcirc (composite ([(NFW.pot 2, 7, 0.35), (NFW.pot 3, 2, 0.65)].map fun q => member q.1 q.2.1 q.2.2)) 1 0 0 ^ 2 = 1 := by
  rw [(C72_composite _ ?_).1]
  · norm_num
  · intro q hq
    simp only [List.mem_cons, List.not_mem_nil, or_false] at hq
    rcases hq with rfl | rfl
    · exact ⟨nfw two_pos, by norm_num, by norm_num⟩
    · exact ⟨nfw (by norm_num : (0 : ℝ) < 3), by norm_num, by norm_num⟩

end Verif
