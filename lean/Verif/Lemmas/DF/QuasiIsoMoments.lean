import Verif.Lemmas.DF.QuasiIso
import Mathlib.Analysis.SpecialFunctions.Gaussian.GaussianIntegral

set_option autoImplicit false

/-!
# Limits of the moments and marginal distributions of `quasiisothermaldf`
-/

noncomputable section
namespace Verif.QuasiIso
open Real Filter Topology MeasureTheory
open SCF (Rule)

/-! ### Symmetric integrands -/

theorem integral_even {g : ℝ → ℝ} (he : ∀ x, g (-x) = g x) {h : ℝ} (hh : 0 ≤ h) : ∫ x in (-h)..h, g x = 2 * ∫ x in (0 : ℝ)..h, g x := by
  have e := integral_comp_abs (f := (Set.Iic h).indicator g)
  rw [intervalIntegral.integral_of_le (by linarith), intervalIntegral.integral_of_le hh, ← integral_Icc_eq_integral_Ioc,
    ← integral_indicator measurableSet_Icc, ← Set.Ioi_inter_Iic, ← setIntegral_indicator measurableSet_Iic, ← e]
  refine integral_congr_ae (Eventually.of_forall fun x => ?_)
  simp only [Set.indicator_apply, Set.mem_Icc, Set.mem_Iic]
  have : (-h ≤ x ∧ x ≤ h) ↔ |x| ≤ h := abs_le.symm
  have g' : g |x| = g x := by rcases abs_cases x with ⟨h, _⟩ | ⟨h, _⟩ <;> rw [h]; exact he x
  by_cases c : |x| ≤ h
  · rw [if_pos (this.2 c), if_pos c, g']
  · rw [if_neg (mt this.1 c), if_neg c]

theorem integral_odd {g : ℝ → ℝ} (ho : ∀ x, g (-x) = -g x) (h : ℝ) : ∫ x in (-h)..h, g x = 0 := by
  have e := intervalIntegral.integral_comp_neg (f := g) (a := -h) (b := h)
  simp only [ho, intervalIntegral.integral_neg, neg_neg] at e
  linarith

theorem lo_int (ad : Bool) {g : ℝ → ℝ} (he : ad = true → ∀ x, g (-x) = g x) {h : ℝ} (hh : 0 ≤ h) :
    (if ad then (2 : ℝ) else 1) * ∫ x in (lo (!ad) h)..h, g x = ∫ x in (-h)..h, g x := by
  cases ad
  · simp [lo]
  · simp [lo, integral_even (he rfl) hh]

/-! ### Two variables and one -/

theorem tendsto2 {leg : ℕ → Rule} (hl : ∀ K, (leg K).Gauss K) (b₁ b₂ : Bool) {h₁ h₂ : ℝ} (p₁ : 0 < h₁) (p₂ : 0 < h₂)
    {G : ℝ → ℝ → ℝ} (hG : ContinuousOn (fun p : ℝ × ℝ => G p.1 p.2) (Set.Icc (lo b₁ h₁) h₁ ×ˢ Set.Icc (lo b₂ h₂) h₂)) :
    Tendsto (fun k => ((ax b₁ leg (2 * k) h₁).map fun p => ((ax b₂ leg (2 * k) h₂).map fun q => G p.1 q.1 * p.2 * q.2).sum).sum
      * (h₁ / 2 * (h₂ / 2))) atTop (𝓝 (∫ p in (lo b₁ h₁)..h₁, ∫ q in (lo b₂ h₂)..h₂, G p q)) := by
  have t := tendsto_box hl b₁ b₂ false p₁ p₂ (two_pos (α := ℝ)) (G := fun p q _ => G p q)
    (hG.comp (by fun_prop : Continuous fun w : ℝ × ℝ × ℝ => ((w.1, w.2.1) : ℝ × ℝ)).continuousOn fun w hw => ⟨hw.1, hw.2.1⟩)
  have i2 : ∀ c : ℝ, (∫ _r in (lo false 2)..2, c) = 2 * c := fun c => by simp [lo]
  simp only [i2, intervalIntegral.integral_const_mul] at t
  have t2 := t.const_mul (1 / 2)
  rw [show (1 / 2 : ℝ) * (2 * ∫ p in (lo b₁ h₁)..h₁, ∫ q in (lo b₂ h₂)..h₂, G p q) = ∫ p in (lo b₁ h₁)..h₁, ∫ q in (lo b₂ h₂)..h₂, G p q by ring] at t2
  refine t2.congr' ?_
  filter_upwards [eventually_ge_atTop 1] with k hk
  have w : ∀ c : ℝ, ((ax false leg (2 * k) 2).map fun r => c * r.2).sum = 2 * c := fun c => by
    have s := S1 false leg k 2 (fun _ => c)
    refine s.trans ?_
    simp only [E, ord, Bool.false_eq_true, if_false]
    rw [← Finset.sum_mul, QuadConv.wsum (hl _) (by omega)]
  simp only [w, ← List.sum_map_mul_left]
  rw [← List.sum_map_mul_right, ← List.sum_map_mul_right, ← List.sum_map_mul_left]
  refine congrArg _ (List.map_congr_left fun p _ => ?_)
  rw [List.sum_map_mul_left]
  ring

theorem tendsto1 {leg : ℕ → Rule} (hl : ∀ K, (leg K).Gauss K) (b : Bool) {h : ℝ} (p : 0 < h)
    {G : ℝ → ℝ} (hG : ContinuousOn G (Set.Icc (lo b h) h)) :
    Tendsto (fun k => ((ax b leg (2 * k) h).map fun p => G p.1 * p.2).sum * (h / 2)) atTop (𝓝 (∫ p in (lo b h)..h, G p)) := by
  have t := tendsto2 hl b false p (two_pos (α := ℝ)) (G := fun p _ => G p) (hG.comp continuous_fst.continuousOn fun w hw => hw.1)
  have i2 : ∀ c : ℝ, (∫ _r in (lo false 2)..2, c) = 2 * c := fun c => by simp [lo]
  simp only [i2, intervalIntegral.integral_const_mul] at t
  have t2 := t.const_mul (1 / 2)
  rw [show (1 / 2 : ℝ) * (2 * ∫ p in (lo b h)..h, G p) = ∫ p in (lo b h)..h, G p by ring] at t2
  refine t2.congr' ?_
  filter_upwards [eventually_ge_atTop 1] with k hk
  have w : ∀ c : ℝ, ((ax false leg (2 * k) 2).map fun r => c * r.2).sum = 2 * c := fun c => by
    have s := S1 false leg k 2 (fun _ => c)
    refine s.trans ?_
    simp only [E, ord, Bool.false_eq_true, if_false]
    rw [← Finset.sum_mul, QuadConv.wsum (hl _) (by omega)]
  simp only [w]
  rw [List.sum_map_mul_left]
  ring

theorem fac_eq (ad : Bool) (h : ℝ) : fac ad h = (if ad then (2 : ℝ) else 1) * (h / 2) := by
  cases ad <;> simp [fac] <;> ring

/-! ### Moments -/

theorem sig_pos {o : Obj} (h : 0 < o.p.sr) (R : ℝ) : 0 < o.sigmaR1 R := mul_pos h (exp_pos _)
theorem sigz_pos {o : Obj} (h : 0 < o.p.sz) (R : ℝ) : 0 < o.sigmaz1 R := mul_pos h (exp_pos _)

theorem moment_lim {leg : ℕ → Rule} (hl : ∀ K, (leg K).Gauss K) (o : Obj) (R z : ℝ) (n m l : ℕ) (ns : Option ℝ) {T : ℝ} (hT : 0 < T)
    (hs : 0 < o.p.sr) (hz : 0 < o.p.sz) (hn : 0 < ns.getD 4) (hp : ¬(o.adiab = true ∧ (n % 2 = 1 ∨ l % 2 = 1)))
    (hf : ContinuousOn (fun w : ℝ × ℝ × ℝ => o.f R w.2.1 w.1 z w.2.2) (Set.Icc 0 T ×ˢ Set.Icc (-(ns.getD 4 * o.sigmaR1 R)) (ns.getD 4 * o.sigmaR1 R)
      ×ˢ Set.Icc (-(ns.getD 4 * o.sigmaz1 R)) (ns.getD 4 * o.sigmaz1 R))) :
    ∃ v : ℕ → ℝ, (∀ k, o.momentGL leg R z n m l ns (2 * k) T = .ok (v k)) ∧
      Tendsto v atTop (𝓝 (∫ vT in (0 : ℝ)..T, ∫ vR in (lo (!o.adiab) (ns.getD 4 * o.sigmaR1 R))..(ns.getD 4 * o.sigmaR1 R),
        ∫ vz in (lo (!o.adiab) (ns.getD 4 * o.sigmaz1 R))..(ns.getD 4 * o.sigmaz1 R), vR ^ n * vT ^ m * vz ^ l * o.f R vR vT z vz)) := by
  set a := ns.getD 4 * o.sigmaR1 R with ha
  set b := ns.getD 4 * o.sigmaz1 R with hb
  have pa : 0 < a := mul_pos hn (sig_pos hs R)
  have pb : 0 < b := mul_pos hn (sigz_pos hz R)
  have mono : ∀ {h : ℝ}, 0 < h → Set.Icc (lo (!o.adiab) h) h ⊆ Set.Icc (-h) h := fun {h} hh => by
    refine Set.Icc_subset_Icc ?_ le_rfl
    cases o.adiab <;> simp [lo]; exact hh.le
  have t := tendsto_box hl false (!o.adiab) (!o.adiab) hT pa pb (G := fun vT vR vz => vR ^ n * vT ^ m * vz ^ l * o.f R vR vT z vz) (by
    refine ContinuousOn.mul (by fun_prop) ?_
    exact hf.mono (Set.prod_mono (by simp [lo]) (Set.prod_mono (mono pa) (mono pb))))
  simp only [ax, Bool.not_not, Bool.not_false] at t
  rw [show lo false T = 0 by simp [lo]] at t
  refine ⟨_, fun k => ?_, t⟩
  have ev : ¬(2 * k % 2 = 1) := by omega
  simp only [Obj.momentGL, if_neg hp, if_neg ev]
  congr 1
  rw [show pos leg (2 * k) T = axis true leg (2 * k) T by simp [axis]]
  rw [show ∀ S : ℝ, S * o.sigmaR1 R * o.sigmaz1 R * 0.125 * T * ns.getD 4 ^ 2 = S * (T / 2 * (a / 2) * (b / 2)) from fun S => by rw [ha, hb]; ring]
  congr 1
  refine congrArg _ (List.map_congr_left fun p _ => congrArg _ (List.map_congr_left fun q _ => congrArg _ (List.map_congr_left fun r _ => by ring)))

end Verif.QuasiIso
