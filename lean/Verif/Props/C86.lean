import Verif.Lemmas.Stream

set_option autoImplicit false

/-!
# C86: streamdf is the model that its parameters describe

Stars leave the progenitor with Gaussian frequency offsets; those at angle offset `a` left at `a / O`, which has to lie within the
disruption time.  `pOparapar` is the resulting distribution of the frequency offset at fixed angle.  The closed forms of the other
methods are compared with integrals of it over all frequencies.

What fails: the stripping times for offsets of less than three dispersions, the dispersion of the perpendicular angle when `sigangle`
is large or `smallest` is set, and the density at zero offset.
-/

noncomputable section
namespace Verif
open Real MeasureTheory Set Gauss Stream

namespace C86Spec

/-- Mean of `f` of the frequency offset at angle offset `a` for disruption time `T`. -/
def meanO (p : Par) (a T : ℝ) (f : ℝ → ℝ) : ℝ := (∫ O, f O * pOparapar p O a T) / ∫ O, pOparapar p O a T

/-- The same for those frequencies within `k` dispersions of the mean. -/
def meanOk (p : Par) (k a T : ℝ) (f : ℝ → ℝ) : ℝ :=
  (∫ O in (p.meandO - k * √p.e2)..(p.meandO + k * √p.e2), f O * pOparapar p O a T)
    / ∫ O in (p.meandO - k * √p.e2)..(p.meandO + k * √p.e2), pOparapar p O a T

/-- Dispersion of the perpendicular angle under the distribution returned by `pangledAngle`. -/
def sigPerp (p : Par) (a : ℝ) (smallest : Bool) : ℝ :=
  √((∫ x, x ^ 2 * pangledAngle p x a smallest) / ∫ x, pangledAngle p x a smallest)

/-- A stream with the default offset of six dispersions. -/
def std : Par := { meandO := 6, e2 := 1, e1 := 1 / 100, e0 := 1 / 400, tdisrupt := 10, sigangle := 1 / 10 }

end C86Spec

open C86Spec

/-- `density_par` is the number of stars at the angle offset: the integral of `pOparapar` over all frequencies, normalised to one
close to the progenitor of a stream with large offset. -/
theorem C86_density (p : Par) {a T : ℝ} (he : 0 < p.e2) (ha : 0 < a) (hT : 0 < T) :
    densityPar p a T = (∫ O, pOparapar p O a T) / √(2 * π) ∧ 0 < densityPar p a T := by
  have h1 : densityPar p a T = (∫ O, pOparapar p O a T) / √(2 * π) := by
    rw [pO_int_one he ha hT, tail0 he, sqrt_mul (by positivity)]
    have h1 := (sqrt_pos.2 he).ne'
    have h2 : √(2 * π) ≠ 0 := (sqrt_pos.2 (by positivity)).ne'
    unfold densityPar
    field_simp
  refine ⟨h1, ?_⟩
  rw [h1]
  exact div_pos (pO_int_pos he ha hT) (sqrt_pos.2 (by positivity))

example : densityPar std 3 10 = (∫ O, pOparapar std O 3 10) / √(2 * π) :=
  (C86_density std (by norm_num [std]) (by norm_num) (by norm_num)).1

/-- `meanOmega` is the mean of the frequency under `pOparapar`, component by component; it exceeds the smallest frequency with
which a star gets that far. -/
theorem C86_mean (p : Par) {a T : ℝ} (prog dir sign : ℝ) (he : 0 < p.e2) (ha : 0 < a) (hT : 0 < T) :
    meanOmega1 p a T = meanO p a T id ∧ meanOmega p a T prog dir sign = meanO p a T (fun O => prog + O * dir * sign)
      ∧ a / T < meanOmega1 p a T := by
  have hp := pO_int_pos he ha hT
  have h1 : meanOmega1 p a T = meanO p a T id := by
    unfold meanO
    rw [pO_int he ha hT, pO_int_one he ha hT, mean_eq he]
    have h1 := (sqrt_pos.2 he).ne'
    have h2 := (tail0_pos (μ := p.meandO) he (a / T)).ne'
    simp only [id]
    field_simp
  refine ⟨h1, ?_, ?_⟩
  · unfold meanOmega
    rw [h1]
    unfold meanO
    rw [eq_div_iff hp.ne']
    rw [pO_int he ha hT, pO_int he ha hT, pO_int_one he ha hT]
    have e : ∫ O in Ioi (a / T), (prog + O * dir * sign) * g p.meandO p.e2 O
      = prog * (∫ O in Ioi (a / T), g p.meandO p.e2 O) + dir * sign * ∫ O in Ioi (a / T), O * g p.meandO p.e2 O := by
      rw [← integral_const_mul, ← integral_const_mul, ← integral_add]
      · congr 1
        funext O
        ring
      · exact ((int0 he).const_mul _).integrableOn
      · exact ((int1 he).const_mul _).integrableOn
    rw [e]
    have h1 := (sqrt_pos.2 he).ne'
    have h2 := (tail0_pos (μ := p.meandO) he (a / T)).ne'
    simp only [id]
    field_simp
  · have hi : IntegrableOn (fun O => (O - a / T) * g p.meandO p.e2 O) (Ioi (a / T)) := by
      have := ((int1 (μ := p.meandO) he).sub ((int0 (μ := p.meandO) he).const_mul (a / T))).integrableOn (s := Ioi (a / T))
      refine IntegrableOn.congr_fun this (fun O _ => ?_) measurableSet_Ioi
      simp only [Pi.sub_apply]
      ring
    have h3 : 0 < ∫ O in Ioi (a / T), (O - a / T) * g p.meandO p.e2 O := by
      rw [setIntegral_pos_iff_support_of_nonneg_ae]
      · have hs : Ioi (a / T) ⊆ (Function.support fun O : ℝ => (O - a / T) * g p.meandO p.e2 O) ∩ Ioi (a / T) := by
          intro x hx
          have hx' := mem_Ioi.1 hx
          exact ⟨(mul_pos (sub_pos.2 hx') (g_pos _ _ _)).ne', hx'⟩
        refine lt_of_lt_of_le ?_ (measure_mono hs)
        rw [Real.volume_Ioi]
        exact ENNReal.zero_lt_top
      · refine (ae_restrict_iff' measurableSet_Ioi).2 (Filter.Eventually.of_forall fun x hx => ?_)
        exact mul_nonneg (sub_nonneg.2 (mem_Ioi.1 hx).le) (g_pos _ _ _).le
      · exact hi
    have h4 : ∫ O in Ioi (a / T), (O - a / T) * g p.meandO p.e2 O
      = (∫ O in Ioi (a / T), O * g p.meandO p.e2 O) - a / T * ∫ O in Ioi (a / T), g p.meandO p.e2 O := by
      rw [← integral_const_mul, ← integral_sub]
      · congr 1
        funext O
        ring
      · exact (int1 he).integrableOn
      · exact ((int0 he).const_mul _).integrableOn
    rw [mean_eq he, lt_div_iff₀ (tail0_pos he _)]
    linarith

example : 3 / 10 < meanOmega1 std 3 10 :=
  (C86_mean std 0 0 0 (by norm_num [std]) (by norm_num) (by norm_num)).2.2

/-- `sigOmega` is the dispersion of the frequency under `pOparapar`, the square root being that of a positive number. -/
theorem C86_sigma (p : Par) {a : ℝ} (he : 0 < p.e2) (ha : 0 < a) (hT : 0 < p.tdisrupt) :
    sigOmega p a = √(meanO p a p.tdisrupt fun O => (O - meanO p a p.tdisrupt id) ^ 2) ∧ 0 < sigOmega p a := by
  have hm := (C86_mean p 0 0 0 he ha hT).1
  have hq : 0 < meanO p a p.tdisrupt fun O => (O - meanO p a p.tdisrupt id) ^ 2 := by
    unfold meanO
    refine div_pos ?_ (pO_int_pos he ha hT)
    rw [pO_int he ha hT]
    exact div_pos (var_pos he _ _) (sqrt_pos.2 he)
  have h1 : sigOmega p a = √(meanO p a p.tdisrupt fun O => (O - meanO p a p.tdisrupt id) ^ 2) := by
    unfold sigOmega
    simp only
    congr 1
    rw [second_eq he, ← hm]
    unfold meanO
    rw [pO_int he ha hT, pO_int_one he ha hT, var_eq he, mean_eq he]
    have h1 := (sqrt_pos.2 he).ne'
    have h2 := (tail0_pos (μ := p.meandO) he (a / p.tdisrupt)).ne'
    generalize ∫ O in Ioi (a / p.tdisrupt), g p.meandO p.e2 O = A at *
    generalize ∫ O in Ioi (a / p.tdisrupt), O * g p.meandO p.e2 O = B at *
    generalize ∫ O in Ioi (a / p.tdisrupt), O ^ 2 * g p.meandO p.e2 O = C at *
    field_simp
    ring
  refine ⟨h1, ?_⟩
  rw [h1]
  exact sqrt_pos.2 hq

example : 0 < sigOmega std 3 := (C86_sigma std (by norm_num [std]) (by norm_num) (by norm_num [std])).2

/-- `ptdAngle` is the distribution of the stripping time `a / O` when `O` is distributed as `pOparapar`: every function of the time
has the same integral under both. -/
theorem C86_time (p : Par) {a : ℝ} (f : ℝ → ℝ) (he : 0 < p.e2) (ha : 0 < a) (hT : 0 < p.tdisrupt) :
    ∫ t, f t * ptdAngle p t a = ∫ O, f (a / O) * pOparapar p O a p.tdisrupt := by
  have h1 : ∫ t, f t * ptdAngle p t a = ∫ t in Ioo 0 p.tdisrupt, f t * ptdAngle p t a := by
    rw [← integral_indicator measurableSet_Ioo]
    congr 1
    funext t
    simp only [indicator]
    split_ifs with h
    · rfl
    · rw [ptd_off h, mul_zero]
  rw [h1, ptd_change he ha f measurableSet_Ioo subset_rfl, inv_image ha hT, pO_int he ha hT fun O => f (a / O), ← integral_div]
  congr 1
  funext O
  ring

example : ∫ t, t ^ 2 * ptdAngle std t 3 = ∫ O, (3 / O) ^ 2 * pOparapar std O 3 10 :=
  C86_time std (fun t => t ^ 2) (by norm_num [std]) (by norm_num) (by norm_num [std])

namespace C86aux

/-- Times between `a / h` and `a / l` and frequencies between `l` and `h`. -/
theorem range {p : Par} {a l h : ℝ} (f : ℝ → ℝ) (he : 0 < p.e2) (ha : 0 < a) (hT : 0 < p.tdisrupt) (hl : 0 < l) (hlh : l ≤ h) :
    ∫ t in (a / h)..(a / l), f t * ptdAngle p t a = ∫ O in l..h, f (a / O) * pOparapar p O a p.tdisrupt := by
  have hh := hl.trans_le hlh
  rw [intervalIntegral.integral_of_le (div_le_div_of_nonneg_left ha.le hl hlh), intervalIntegral.integral_of_le hlh,
    integral_Ioc_eq_integral_Ioo, integral_Ioc_eq_integral_Ioo]
  have h1 : ∫ t in Ioo (a / h) (a / l), f t * ptdAngle p t a
      = ∫ t in Ioo (a / h) (a / l) ∩ Ioo 0 p.tdisrupt, f t * ptdAngle p t a := by
    rw [← integral_indicator measurableSet_Ioo, ← integral_indicator (measurableSet_Ioo.inter measurableSet_Ioo)]
    congr 1
    funext t
    simp only [indicator, mem_inter_iff]
    by_cases h1 : t ∈ Ioo (a / h) (a / l) <;> by_cases h2 : t ∈ Ioo 0 p.tdisrupt <;> simp [h1, h2, -mem_Ioo]
    right
    exact ptd_off h2
  have h2 : (fun t => a / t) '' (Ioo (a / h) (a / l) ∩ Ioo 0 p.tdisrupt) = Ioo l h ∩ Ioi (a / p.tdisrupt) := by
    rw [image_inter_on, inv_image ha hT]
    · congr 1
      ext O
      constructor
      · rintro ⟨t, ⟨h0, h1⟩, rfl⟩
        have ht : 0 < t := (div_pos ha hh).trans h0
        rw [lt_div_iff₀ hl] at h1
        rw [div_lt_iff₀ hh] at h0
        exact ⟨by rw [lt_div_iff₀ ht]; linarith, by rw [div_lt_iff₀ ht]; linarith⟩
      · rintro ⟨h0, h1⟩
        have hO : 0 < O := hl.trans h0
        exact ⟨a / O, ⟨div_lt_div_of_pos_left ha hO h1, div_lt_div_of_pos_left ha hl h0⟩, by simp only; field_simp⟩
    · intro x hx y hy hxy
      have hx' : 0 < x := hx.1
      have hy' : 0 < y := (div_pos ha hh).trans hy.1
      rw [div_eq_div_iff hx'.ne' hy'.ne'] at hxy
      exact (mul_left_cancel₀ ha.ne' hxy).symm
  rw [h1, ptd_change he ha f (measurableSet_Ioo.inter measurableSet_Ioo) inter_subset_right, h2,
    ← integral_indicator (measurableSet_Ioo.inter measurableSet_Ioi), ← integral_indicator measurableSet_Ioo]
  congr 1
  funext O
  simp only [indicator, mem_inter_iff, pO_eq he ha hT]
  by_cases h1 : O ∈ Ioo l h <;> by_cases h2 : O ∈ Ioi (a / p.tdisrupt) <;> simp [h1, h2, -mem_Ioo, -mem_Ioi]

theorem range1 {p : Par} {a l h : ℝ} (he : 0 < p.e2) (ha : 0 < a) (hT : 0 < p.tdisrupt) (hl : 0 < l) (hlh : l ≤ h) :
    ∫ t in (a / h)..(a / l), ptdAngle p t a = ∫ O in l..h, pOparapar p O a p.tdisrupt := by
  have := range (fun _ => 1) he ha hT hl hlh
  simpa using this

theorem ptd_ii {p : Par} {a : ℝ} (he : 0 < p.e2) (ha : 0 < a) (hT : 0 < p.tdisrupt) (x y : ℝ) :
    IntervalIntegrable (fun t => ptdAngle p t a) volume x y := (ptd_integrable he ha hT).intervalIntegrable

theorem ptd_ii1 {p : Par} {a : ℝ} (he : 0 < p.e2) (ha : 0 < a) (hT : 0 < p.tdisrupt) (x y : ℝ) :
    IntervalIntegrable (fun t => t * ptdAngle p t a) volume x y := (ptd_ii he ha hT x y).continuousOn_mul (by fun_prop)

theorem ptd_mass_pos {p : Par} {a x y : ℝ} (he : 0 < p.e2) (ha : 0 < a) (hx : 0 ≤ x) (hxy : x < y) (hT : x < p.tdisrupt) :
    0 < ∫ t in x..y, ptdAngle p t a := by
  have hT0 := hx.trans_lt hT
  have h1 : (∫ t in x..(min y p.tdisrupt), ptdAngle p t a) + (∫ t in (min y p.tdisrupt)..y, ptdAngle p t a)
      = ∫ t in x..y, ptdAngle p t a := intervalIntegral.integral_add_adjacent_intervals (ptd_ii he ha hT0 _ _) (ptd_ii he ha hT0 _ _)
  have h2 : 0 < ∫ t in x..(min y p.tdisrupt), ptdAngle p t a := by
    refine intervalIntegral.intervalIntegral_pos_of_pos_on (ptd_ii he ha hT0 _ _) (fun t ht => ?_) (lt_min hxy hT)
    exact ptd_pos he ha ⟨hx.trans_lt ht.1, ht.2.trans_le (min_le_right _ _)⟩
  have h3 : 0 ≤ ∫ t in (min y p.tdisrupt)..y, ptdAngle p t a :=
    intervalIntegral.integral_nonneg (min_le_left _ _) fun t _ => ptd_nonneg ha.le t
  linarith

end C86aux

/-- Stripping times, full statement: `meantdAngle` is the mean of `a / O` and `sigtdAngle` its dispersion.

Proved here: for an offset of more than three dispersions they are mean and dispersion over the frequencies within three
dispersions of the offset, and the disruption time (with dispersion zero) where no such frequency gets that far.
Missing: the frequencies further out, which the code leaves out, and offsets below three dispersions, where the result is wrong
(`C86_meantd_fails`). -/
theorem C86_meantd_partial (p : Par) {a : ℝ} (he : 0 < p.e2) (ha : 0 < a) (hT : 0 < p.tdisrupt) (h3 : 3 * √p.e2 < p.meandO) :
    (a / p.tdisrupt < p.meandO + 3 * √p.e2 →
      meantdAngle p a = meanOk p 3 a p.tdisrupt (fun O => a / O) ∧
      sigtdAngle p a = √(meanOk p 3 a p.tdisrupt (fun O => (a / O) ^ 2) - meanOk p 3 a p.tdisrupt (fun O => a / O) ^ 2)) ∧
    (p.meandO + 3 * √p.e2 ≤ a / p.tdisrupt → meantdAngle p a = p.tdisrupt ∧ sigtdAngle p a = 0) := by
  have hs := sqrt_pos.2 he
  have hl : 0 < p.meandO - 3 * √p.e2 := by linarith
  have hlh : p.meandO - 3 * √p.e2 ≤ p.meandO + 3 * √p.e2 := by linarith
  have hh := hl.trans_le hlh
  constructor
  · intro h
    have hTl : Tlow p a < p.tdisrupt := by
      unfold Tlow
      rw [div_lt_iff₀ hT] at h
      rw [div_lt_iff₀ hh]
      linarith
    have hd : 0 < ∫ x in (Tlow p a)..(Thigh p a), ptdAngle p x a :=
      C86aux.ptd_mass_pos he ha (div_pos ha hh).le (div_lt_div_of_pos_left ha hl (by linarith)) hTl
    have e0 : ∫ x in (Tlow p a)..(Thigh p a), ptdAngle p x a = _ := C86aux.range1 he ha hT hl hlh
    have e1 : ∫ x in (Tlow p a)..(Thigh p a), x * ptdAngle p x a = _ := C86aux.range (fun t => t) he ha hT hl hlh
    have e2 : ∫ x in (Tlow p a)..(Thigh p a), x ^ 2 * ptdAngle p x a = _ := C86aux.range (fun t => t ^ 2) he ha hT hl hlh
    constructor
    · unfold meantdAngle meanOk
      simp only
      rw [if_neg (fun h => hd.ne' h.1), if_neg (fun h => hd.ne' h.1), e0, e1]
    · unfold sigtdAngle meanOk
      simp only
      rw [if_neg hd.ne', e0, e1, e2]
  · intro h
    have hTl : p.tdisrupt ≤ Tlow p a := by
      unfold Tlow
      rw [le_div_iff₀ hT] at h
      rw [le_div_iff₀ hh]
      linarith
    have hd : ∫ x in (Tlow p a)..(Thigh p a), ptdAngle p x a = 0 := by
      have : ∫ x in (Tlow p a)..(Thigh p a), ptdAngle p x a = ∫ x in (Tlow p a)..(Thigh p a), (0 : ℝ) := by
        refine intervalIntegral.integral_congr fun t ht => ?_
        have hle : Tlow p a ≤ Thigh p a := div_le_div_of_nonneg_left ha.le hl hlh
        rw [uIcc_of_le hle] at ht
        exact ptd_off fun hh => absurd hh.2 (not_lt.2 (hTl.trans ht.1))
      simpa using this
    have hm : 0 < p.meandO := by linarith
    have hr : p.tdisrupt / 10 < a / p.meandO := by
      have h1 : Tlow p a ≤ a / p.meandO := div_le_div_of_nonneg_left ha.le hm (by linarith)
      linarith
    constructor
    · unfold meantdAngle
      simp only
      rw [if_neg (fun h => absurd h.2 (not_lt.2 hr.le)), if_pos ⟨hd, hr⟩]
    · unfold sigtdAngle
      simp only
      rw [if_pos hd]

example : meantdAngle std 3 = meanOk std 3 3 10 (fun O => 3 / O) :=
  ((C86_meantd_partial std (by norm_num [std]) (by norm_num) (by norm_num [std]) (by norm_num [std])).1 (by norm_num [std])).1

/-- For a mean offset below three dispersions (the user's `sigMeanOffset < 3`) the upper limit `a / (meandO - 3 sigma)` of the
integral over stripping time is negative, and `meantdAngle` averages over the times *below* the lower limit: for every angle offset
that stars within three dispersions reach, it returns less than the time at which the fastest of these left, and less than the
mean stripping time. -/
theorem C86_meantd_fails (p : Par) {a : ℝ} (he : 0 < p.e2) (ha : 0 < a) (hT : 0 < p.tdisrupt) (h0 : 0 < p.meandO)
    (h3 : p.meandO < 3 * √p.e2) (hr : a / p.tdisrupt < p.meandO + 3 * √p.e2) :
    meantdAngle p a < a / (p.meandO + 3 * √p.e2) ∧ meantdAngle p a < meanO p a p.tdisrupt (fun O => a / O) := by
  have hs := sqrt_pos.2 he
  have hh : 0 < p.meandO + 3 * √p.e2 := by linarith
  have hl0 : 0 < Tlow p a := div_pos ha hh
  have hh0 : Thigh p a < 0 := div_neg_of_pos_of_neg ha (by linarith)
  have hTl : Tlow p a < p.tdisrupt := by
    unfold Tlow
    rw [div_lt_iff₀ hT] at hr
    rw [div_lt_iff₀ hh]
    linarith
  -- the limits are exchanged and times before zero do not count
  have cut : ∀ f : ℝ → ℝ, (∀ x y, IntervalIntegrable (fun t => f t * ptdAngle p t a) volume x y) →
      ∫ x in (Tlow p a)..(Thigh p a), f x * ptdAngle p x a = -∫ x in (0 : ℝ)..(Tlow p a), f x * ptdAngle p x a := by
    intro f hf
    rw [intervalIntegral.integral_symm, ← intervalIntegral.integral_add_adjacent_intervals (hf (Thigh p a) 0) (hf 0 _)]
    have : ∫ x in (Thigh p a)..(0 : ℝ), f x * ptdAngle p x a = ∫ x in (Thigh p a)..(0 : ℝ), (0 : ℝ) := by
      refine intervalIntegral.integral_congr fun t ht => ?_
      rw [uIcc_of_le hh0.le] at ht
      rw [ptd_off fun hh => absurd hh.1 (not_lt.2 ht.2), mul_zero]
    rw [this]
    simp
  have ii0 := fun x y => C86aux.ptd_ii (p := p) he ha hT x y
  have ii1 := fun x y => C86aux.ptd_ii1 (p := p) he ha hT x y
  have c0 := cut (fun _ => 1) (fun x y => by simpa using ii0 x y)
  simp only [one_mul] at c0
  have c1 := cut (fun t => t) ii1
  have hN0 : 0 < ∫ t in (0 : ℝ)..(Tlow p a), ptdAngle p t a := C86aux.ptd_mass_pos he ha le_rfl hl0 hT
  have hN1 : 0 < ∫ t in (Tlow p a)..p.tdisrupt, ptdAngle p t a := C86aux.ptd_mass_pos he ha hl0.le hTl hTl
  have hM0 : ∫ t in (0 : ℝ)..(Tlow p a), t * ptdAngle p t a < Tlow p a * ∫ t in (0 : ℝ)..(Tlow p a), ptdAngle p t a := by
    rw [← intervalIntegral.integral_const_mul, ← sub_pos, ← intervalIntegral.integral_sub ((ii0 _ _).const_mul _) (ii1 _ _)]
    refine intervalIntegral.intervalIntegral_pos_of_pos_on (((ii0 _ _).const_mul _).sub (ii1 _ _)) (fun t ht => ?_) hl0
    have := ptd_pos (p := p) he ha ⟨ht.1, ht.2.trans hTl⟩
    nlinarith [ht.2, mul_pos (sub_pos.2 ht.2) this]
  have hM1 : Tlow p a * (∫ t in (Tlow p a)..p.tdisrupt, ptdAngle p t a) ≤ ∫ t in (Tlow p a)..p.tdisrupt, t * ptdAngle p t a := by
    rw [← intervalIntegral.integral_const_mul]
    refine intervalIntegral.integral_mono_on hTl.le ((ii0 _ _).const_mul _) (ii1 _ _) fun t ht => ?_
    exact mul_le_mul_of_nonneg_right ht.1 (ptd_nonneg ha.le t)
  have hval : meantdAngle p a = (∫ t in (0 : ℝ)..(Tlow p a), t * ptdAngle p t a) / ∫ t in (0 : ℝ)..(Tlow p a), ptdAngle p t a := by
    have hne : ∫ x in (Tlow p a)..(Thigh p a), ptdAngle p x a ≠ 0 := by rw [c0]; exact neg_ne_zero.2 hN0.ne'
    unfold meantdAngle
    simp only
    rw [if_neg (fun h => hne h.1), if_neg (fun h => hne h.1), c0, c1, neg_div_neg_eq]
  have hlt : meantdAngle p a < Tlow p a := by
    rw [hval, div_lt_iff₀ hN0]
    exact hM0
  refine ⟨hlt, ?_⟩
  have whole : ∀ f : ℝ → ℝ, (∀ x y, IntervalIntegrable (fun t => f t * ptdAngle p t a) volume x y) →
      ∫ t, f t * ptdAngle p t a = (∫ t in (0 : ℝ)..(Tlow p a), f t * ptdAngle p t a)
        + ∫ t in (Tlow p a)..p.tdisrupt, f t * ptdAngle p t a := by
    intro f hf
    rw [intervalIntegral.integral_add_adjacent_intervals (hf _ _) (hf _ _), intervalIntegral.integral_of_le hT.le,
      integral_Ioc_eq_integral_Ioo, ← integral_indicator measurableSet_Ioo]
    congr 1
    funext t
    simp only [indicator]
    split_ifs with h
    · rfl
    · rw [ptd_off h, mul_zero]
  have w0 := whole (fun _ => 1) (fun x y => by simpa using ii0 x y)
  have w1 := whole (fun t => t) ii1
  have t0 := C86_time p (fun _ => 1) he ha hT
  have t1 := C86_time p (fun t => t) he ha hT
  simp only [one_mul] at w0 t0
  unfold meanO
  rw [← t0, ← t1, w0, w1, hval, div_lt_div_iff₀ hN0 (by linarith)]
  generalize (∫ t in (0 : ℝ)..(Tlow p a), t * ptdAngle p t a) = M0 at *
  generalize (∫ t in (0 : ℝ)..(Tlow p a), ptdAngle p t a) = N0 at *
  generalize (∫ t in (Tlow p a)..p.tdisrupt, ptdAngle p t a) = N1 at *
  generalize (∫ t in (Tlow p a)..p.tdisrupt, t * ptdAngle p t a) = M1 at *
  nlinarith [mul_lt_mul_of_pos_right hM0 hN1, mul_le_mul_of_nonneg_right hM1 hN0.le]

example : meantdAngle { std with meandO := 2 } 3 < 3 / 5 := by
  have := (C86_meantd_fails { std with meandO := 2 } (a := 3) (by norm_num [std]) (by norm_num) (by norm_num [std]) (by norm_num)
    (by norm_num [std]) (by norm_num [std])).1
  norm_num [std] at this ⊢
  linarith

/-- The perpendicular angle: `pangledAngle` integrates to that of the stripping time, its second moment is the mean of
`t² eigenvalue + sigangle²`, it is even, and `meanangledAngle` is zero. -/
theorem C86_perp (p : Par) {a : ℝ} (smallest : Bool) (he : 0 < p.e2) (ha : 0 < a) (hT : 0 < p.tdisrupt) (hs : 0 < p.sigangle)
    (h0 : 0 ≤ p.e0) (h1 : 0 ≤ p.e1) :
    ∫ x, pangledAngle p x a smallest = √(2 * π) * ∫ t, ptdAngle p t a ∧
    sigPerp p a smallest = √((∫ t, (t ^ 2 * (if smallest then p.e0 else p.e1) + p.sigangle ^ 2) * ptdAngle p t a) / ∫ t, ptdAngle p t a) ∧
    (∀ x, pangledAngle p (-x) a smallest = pangledAngle p x a smallest) ∧
    meanangledAngle p a smallest = 0 := by
  have hb := eig_nonneg h0 h1 smallest
  refine ⟨mass_eq he ha hs hb hT, ?_, fun x => pangled_even x a smallest, ?_⟩
  · unfold sigPerp
    rw [mass_eq he ha hs hb hT, second_moment_eq he ha hs hb hT]
    congr 1
    have : √(2 * π) ≠ 0 := (sqrt_pos.2 (by positivity)).ne'
    exact mul_div_mul_left _ _ this
  · unfold meanangledAngle
    simp only
    have : ∫ x in (aplow p smallest)..(-aplow p smallest), x * pangledAngle p x a smallest = 0 := by
      have h := intervalIntegral.integral_comp_neg (a := aplow p smallest) (b := -aplow p smallest)
        (fun x => x * pangledAngle p x a smallest)
      rw [neg_neg] at h
      have h2 : ∫ x in (aplow p smallest)..(-aplow p smallest), (fun x => x * pangledAngle p x a smallest) (-x)
        = -∫ x in (aplow p smallest)..(-aplow p smallest), x * pangledAngle p x a smallest := by
        rw [← intervalIntegral.integral_neg]
        refine intervalIntegral.integral_congr fun x _ => ?_
        simp only
        rw [pangled_even]
        ring
      rw [h2] at h
      rw [intervalIntegral.integral_symm (-aplow p smallest)] at h
      have h3 := intervalIntegral.integral_symm (-aplow p smallest) (aplow p smallest) (f := fun x => x * pangledAngle p x a smallest)
        (μ := volume)
      linarith
    rw [this, zero_div, ite_self]

example : meanangledAngle std 3 false = 0 :=
  (C86_perp std false (by norm_num [std]) (by norm_num) (by norm_num [std]) (by norm_num [std]) (by norm_num [std])
    (by norm_num [std])).2.2.2

namespace C86aux

/-- The dispersion found over `[-s, s]` is at most that of a uniform distribution. -/
theorem trunc {f : ℝ → ℝ} {s : ℝ} (hs : 0 < s) (hf : AntitoneOn f (Ici 0)) (hev : ∀ x, f (-x) = f x) (hpos : ∀ x, 0 < f x) :
    (∫ x in s..(-s), x ^ 2 * f x) / (∫ x in s..(-s), f x) ≤ s ^ 2 / 3 ∧ ∫ x in s..(-s), f x ≠ 0 := by
  have hf' : AntitoneOn f (Icc 0 s) := hf.mono fun x hx => hx.1
  have hi0 : IntervalIntegrable f volume 0 s := by
    refine AntitoneOn.intervalIntegrable ?_
    rwa [uIcc_of_le hs.le]
  have neg : ∀ h : ℝ → ℝ, (∀ x, h (-x) = h x) → IntervalIntegrable h volume 0 s →
      ∫ x in s..(-s), h x = -(2 * ∫ x in (0 : ℝ)..s, h x) := by
    intro h he hi
    have hi' : IntervalIntegrable h volume (-s) 0 := by
      have := hi.symm
      rw [IntervalIntegrable.iff_comp_neg, neg_zero] at this
      simpa only [he] using this
    rw [intervalIntegral.integral_symm, ← intervalIntegral.integral_add_adjacent_intervals hi' hi]
    have h2 := intervalIntegral.integral_comp_neg (a := -s) (b := 0) h
    rw [neg_neg, neg_zero] at h2
    rw [← h2]
    simp only [he]
    ring
  have e0 := neg f hev hi0
  have e2 := neg (fun x => x ^ 2 * f x) (fun x => by rw [hev, neg_sq]) (hi0.continuousOn_mul (by fun_prop))
  have hp : 0 < ∫ x in (0 : ℝ)..s, f x := intervalIntegral.intervalIntegral_pos_of_pos_on hi0 (fun x _ => hpos x) hs
  rw [e0, e2]
  refine ⟨?_, neg_ne_zero.2 (by positivity)⟩
  rw [neg_div_neg_eq, mul_div_mul_left _ _ two_ne_zero, div_le_iff₀ hp]
  exact unif_bound hs hf'

theorem t_ii2 {p : Par} {a : ℝ} (he : 0 < p.e2) (ha : 0 < a) (hT : 0 < p.tdisrupt) : Integrable fun t => t ^ 2 * ptdAngle p t a := by
  refine ((ptd_integrable he ha hT).const_mul (p.tdisrupt ^ 2)).mono' ?_ (Filter.Eventually.of_forall fun t => ?_)
  · exact (by fun_prop : Measurable fun t : ℝ => t ^ 2).aestronglyMeasurable.mul (ptd_integrable he ha hT).aestronglyMeasurable
  · rw [norm_eq_abs, abs_mul, abs_of_nonneg (sq_nonneg t), abs_of_nonneg (ptd_nonneg ha.le t)]
    by_cases h : t ∈ Ioo 0 p.tdisrupt
    · exact mul_le_mul_of_nonneg_right (pow_le_pow_left₀ h.1.le h.2.le 2) (ptd_nonneg ha.le t)
    · rw [ptd_off h, mul_zero, mul_zero]

theorem ptd_whole_pos {p : Par} {a : ℝ} (he : 0 < p.e2) (ha : 0 < a) (hT : 0 < p.tdisrupt) : 0 < ∫ t, ptdAngle p t a := by
  have t0 := C86_time p (fun _ => 1) he ha hT
  simp only [one_mul] at t0
  rw [t0]
  exact pO_int_pos he ha hT

theorem t2_pos {p : Par} {a : ℝ} (he : 0 < p.e2) (ha : 0 < a) (hT : 0 < p.tdisrupt) : 0 < ∫ t, t ^ 2 * ptdAngle p t a := by
  rw [C86_time p (fun t => t ^ 2) he ha hT, pO_int he ha hT]
  refine div_pos ?_ (sqrt_pos.2 he)
  have h0 : 0 < a / p.tdisrupt := div_pos ha hT
  rw [setIntegral_pos_iff_support_of_nonneg_ae]
  · have hs : Ioi (a / p.tdisrupt) ⊆ (Function.support fun O : ℝ => (a / O) ^ 2 * g p.meandO p.e2 O) ∩ Ioi (a / p.tdisrupt) := by
      intro x hx
      have hx' := mem_Ioi.1 hx
      have : 0 < x := h0.trans hx'
      exact ⟨(mul_pos (pow_pos (div_pos ha this) 2) (g_pos _ _ _)).ne', hx'⟩
    refine lt_of_lt_of_le ?_ (measure_mono hs)
    rw [Real.volume_Ioi]
    exact ENNReal.zero_lt_top
  · exact Filter.Eventually.of_forall fun x => mul_nonneg (sq_nonneg _) (g_pos _ _ _).le
  · refine ((int0 (μ := p.meandO) he).const_mul (p.tdisrupt ^ 2)).integrableOn.mono' ?_ ?_
    · exact (by unfold g; fun_prop : Measurable fun O => (a / O) ^ 2 * g p.meandO p.e2 O).aestronglyMeasurable
    · refine (ae_restrict_iff' measurableSet_Ioi).2 (Filter.Eventually.of_forall fun x hx => ?_)
      have hx' : a / p.tdisrupt < x := mem_Ioi.1 hx
      have hx0 : 0 < x := h0.trans hx'
      rw [norm_eq_abs, abs_of_nonneg (mul_nonneg (sq_nonneg _) (g_pos _ _ _).le)]
      refine mul_le_mul_of_nonneg_right (pow_le_pow_left₀ (div_pos ha hx0).le ?_ 2) (g_pos _ _ _).le
      rw [div_lt_iff₀ hT] at hx'
      rw [div_le_iff₀ hx0]
      linarith

theorem sigPerp_sq {p : Par} {a : ℝ} (b : Bool) (he : 0 < p.e2) (ha : 0 < a) (hT : 0 < p.tdisrupt) (hs : 0 < p.sigangle)
    (h0 : 0 ≤ p.e0) (h1 : 0 ≤ p.e1) :
    sigPerp p a b = √((if b then p.e0 else p.e1) * ((∫ t, t ^ 2 * ptdAngle p t a) / ∫ t, ptdAngle p t a) + p.sigangle ^ 2) := by
  rw [(C86_perp p b he ha hT hs h0 h1).2.1]
  congr 1
  generalize (if b then p.e0 else p.e1) = e
  have hp := ptd_whole_pos he ha hT
  have : ∫ t, (t ^ 2 * e + p.sigangle ^ 2) * ptdAngle p t a = e * (∫ t, t ^ 2 * ptdAngle p t a) + p.sigangle ^ 2 * ∫ t, ptdAngle p t a := by
    rw [← integral_const_mul, ← integral_const_mul, ← integral_add ((t_ii2 he ha hT).const_mul _) ((ptd_integrable he ha hT).const_mul _)]
    congr 1
    funext t
    ring
  rw [this]
  have := hp.ne'
  field_simp

end C86aux

/-- `sigangledAngle` integrates the distribution of the perpendicular angle only out to the larger of `sigangle` and five times the
spread from the frequencies.  Where the initial spread `sigangle` dominates this is out to one dispersion, and the result is below
`sigangle / √3`, although the dispersion is at least `sigangle`: too small by more than 40%. -/
theorem C86_sigangle_fails (p : Par) {a : ℝ} (assumeZeroMean smallest : Bool) (he : 0 < p.e2) (ha : 0 < a) (hT : 0 < p.tdisrupt)
    (hs : 0 < p.sigangle) (h0 : 0 ≤ p.e0) (h1 : 0 ≤ p.e1) (hd : 5 * √(if smallest then p.e0 else p.e1) * p.tdisrupt ≤ p.sigangle) :
    sigangledAngle p a assumeZeroMean smallest false ≤ p.sigangle / √3 ∧ p.sigangle ≤ sigPerp p a smallest ∧
      sigangledAngle p a assumeZeroMean smallest false < sigPerp p a smallest := by
  have hb := eig_nonneg h0 h1 smallest
  have hf := eig_nonneg h0 h1 false
  have hap : aplow p smallest = p.sigangle := by
    unfold aplow eig
    refine max_eq_right ?_
    linarith
  have h3 : 1 < √(3 : ℝ) := by
    rw [lt_sqrt (by norm_num)]
    norm_num
  have A : sigangledAngle p a assumeZeroMean smallest false ≤ p.sigangle / √3 := by
    obtain ⟨hle, hne⟩ := C86aux.trunc hs (pangled_anti he ha hs hf hT) (fun x => pangled_even x a false) (pangled_pos he ha hs hf hT)
    unfold sigangledAngle
    simp only [hap, Bool.false_eq_true, if_false]
    rw [if_neg hne]
    refine (sqrt_le_sqrt (show _ ≤ p.sigangle ^ 2 / 3 from ?_)).trans ?_
    · refine le_trans ?_ hle
      exact sub_le_self _ (sq_nonneg _)
    · rw [sqrt_div (sq_nonneg _), sqrt_sq hs.le]
  have B : p.sigangle ≤ sigPerp p a smallest := by
    rw [C86aux.sigPerp_sq smallest he ha hT hs h0 h1]
    refine le_sqrt_of_sq_le ?_
    have := C86aux.t2_pos he ha hT
    have := C86aux.ptd_whole_pos he ha hT
    have hb' : 0 ≤ (if smallest then p.e0 else p.e1) := hb
    generalize (if smallest then p.e0 else p.e1) = e at *
    have : 0 ≤ e * ((∫ t, t ^ 2 * ptdAngle p t a) / ∫ t, ptdAngle p t a) := by positivity
    linarith
  refine ⟨A, B, lt_of_le_of_lt A (lt_of_lt_of_le ?_ B)⟩
  rw [div_lt_iff₀ (by linarith)]
  nlinarith

example : sigangledAngle { std with sigangle := 5 } 3 true false false ≤ 5 / √3 := by
  have h : √(1 / 100 : ℝ) = 1 / 10 := by
    rw [show (1 / 100 : ℝ) = (1 / 10) ^ 2 by norm_num, sqrt_sq (by norm_num)]
  exact (C86_sigangle_fails { std with sigangle := 5 } (a := 3) true false (by norm_num [std]) (by norm_num) (by norm_num [std])
    (by norm_num) (by norm_num [std]) (by norm_num [std]) (by norm_num [std, h])).1

/-- `sigangledAngle(smallest=True)` does not use the smallest eigenvalue: `smallest` is not handed on to `pangledAngle`.  Streams
that differ in it get the same answer although their dispersions differ. -/
theorem C86_smallest_fails (p : Par) {a : ℝ} (assumeZeroMean : Bool) (he : 0 < p.e2) (ha : 0 < a) (hT : 0 < p.tdisrupt)
    (hs : 0 < p.sigangle) (h0 : 0 ≤ p.e0) (h1 : 0 ≤ p.e1) (e : ℝ) (hne : e ≠ p.e0) (he0 : 0 ≤ e)
    (hd : 5 * √p.e0 * p.tdisrupt ≤ p.sigangle) (hd' : 5 * √e * p.tdisrupt ≤ p.sigangle) :
    sigangledAngle { p with e0 := e } a assumeZeroMean true false = sigangledAngle p a assumeZeroMean true false ∧
    sigPerp { p with e0 := e } a true ≠ sigPerp p a true := by
  constructor
  · have hap : ∀ q : Par, q.sigangle = p.sigangle → q.tdisrupt = p.tdisrupt → 5 * √q.e0 * p.tdisrupt ≤ p.sigangle →
        aplow q true = p.sigangle := by
      intro q e1 e2 h
      unfold aplow eig
      simp only [if_true, e1, e2]
      refine max_eq_right ?_
      linarith
    have a1 := hap p rfl rfl hd
    have a2 := hap { p with e0 := e } rfl rfl hd'
    unfold sigangledAngle
    simp only [a1, a2, Bool.false_eq_true, if_false]
    rfl
  · rw [C86aux.sigPerp_sq true he ha hT hs h0 h1,
      C86aux.sigPerp_sq (p := { p with e0 := e }) true he ha hT hs he0 h1]
    have hp : 0 < (∫ t, t ^ 2 * ptdAngle p t a) / ∫ t, ptdAngle p t a := div_pos (C86aux.t2_pos he ha hT) (C86aux.ptd_whole_pos he ha hT)
    simp only [if_true]
    change √(e * ((∫ t, t ^ 2 * ptdAngle p t a) / ∫ t, ptdAngle p t a) + p.sigangle ^ 2) ≠ _
    intro h
    rw [sqrt_inj (by positivity) (by positivity)] at h
    exact hne (mul_right_cancel₀ hp.ne' (by linarith))

example : sigangledAngle { std with sigangle := 5, e0 := 0 } 3 true true false
    = sigangledAngle { std with sigangle := 5 } 3 true true false := by
  have h : √(1 / 400 : ℝ) = 1 / 20 := by
    rw [show (1 / 400 : ℝ) = (1 / 20) ^ 2 by norm_num, sqrt_sq (by norm_num)]
  exact (C86_smallest_fails { std with sigangle := 5 } (a := 3) true (by norm_num [std]) (by norm_num) (by norm_num [std])
    (by norm_num) (by norm_num [std]) (by norm_num [std]) 0 (by norm_num [std]) le_rfl (by norm_num [std, h])
    (by norm_num [std])).1

/-- At angle offset zero every frequency passes the test of `pOparapar`, also those moving the other way, and its integral is not
what `density_par` returns. -/
theorem C86_density_zero_fails (p : Par) {T : ℝ} (he : 0 < p.e2) (hT : 0 < T) :
    (∫ O, pOparapar p O 0 T) / √(2 * π) = 1 ∧ densityPar p 0 T < 1 := by
  constructor
  · have h1 : ∫ O, pOparapar p O 0 T = ∫ O, g p.meandO p.e2 O / √p.e2 := by
      refine integral_congr_ae ?_
      have : ∀ᵐ O : ℝ, O ≠ 0 := by
        rw [ae_iff]
        simp
      filter_upwards [this] with O hO
      unfold pOparapar
      rw [if_pos ⟨hO, by simpa using hT, by simp⟩, exp_eq he]
    have h2 : ∫ O, g p.meandO p.e2 O = √(2 * π * p.e2) := by
      rw [← full0 he, ← integral_sub_right_eq_self (g 0 p.e2) p.meandO]
      unfold g
      simp
    rw [h1, integral_div, h2, sqrt_mul (by positivity)]
    have := (sqrt_pos.2 he).ne'
    have h2 : √(2 * π) ≠ 0 := (sqrt_pos.2 (by positivity)).ne'
    field_simp
  · unfold densityPar
    simp only
    have h := erf_gt (-((p.meandO - 0 / T) / √(2 * p.e2)))
    rw [erf_neg] at h
    linarith

example : densityPar std 0 10 < 1 := (C86_density_zero_fails std (by norm_num [std]) (by norm_num)).2

end Verif
