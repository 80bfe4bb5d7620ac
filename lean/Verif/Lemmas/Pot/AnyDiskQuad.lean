import Verif.Lemmas.Pot.AnyDisk
import Mathlib.MeasureTheory.Function.JacobianOneDim

set_option autoImplicit false

/-! # The integrals of `AnyAxisymmetricRazorThinDiskPotential` are those over the rings -/

noncomputable section
namespace Verif.AnyDisk
open Real MeasureTheory Set Filter Topology Ring

theorem sub_int {g : ℝ → ℝ} (hi : IntegrableOn g (Ioi 0)) {b : ℝ} (hb : 0 ≤ b) : IntegrableOn g (Ioi b) :=
  hi.mono_set (Ioi_subset_Ioi hb)
theorem sub_ii {g : ℝ → ℝ} (hi : IntegrableOn g (Ioi 0)) {b c : ℝ} (hb : 0 ≤ b) (hc : b ≤ c) : IntervalIntegrable g volume b c :=
  (intervalIntegrable_iff_integrableOn_Ioc_of_le hc).2 (hi.mono_set fun _ hx => lt_of_le_of_lt hb hx.1)

theorem quadApeak_eq {f : ℝ → ℝ → ℝ → ℝ} {R z : ℝ} (hR : 0 < R) (hz : z ≠ 0)
    (hi : IntegrableOn (fun a => f a (a - R) ((a - R) ^ 2 + z ^ 2)) (Ioi 0)) :
    quadApeak f R z = ∫ a in Ioi (0 : ℝ), f a (a - R) ((a - R) ^ 2 + z ^ 2) := by
  have haz := abs_pos.2 hz
  set g : ℝ → ℝ := fun a => f a (a - R) ((a - R) ^ 2 + z ^ 2) with hg
  have hR2 : 0 ≤ 2 * R := by positivity
  unfold quadApeak
  simp only
  split_ifs with hc
  · exact intervalIntegral.integral_interval_add_Ioi hi (sub_int hi hR2)
  · set T : ℝ := min 1.0e4 (R / |z|) with hT
    have hT0 : 0 ≤ T := le_min (by norm_num) (by positivity)
    have hTR : |z| * T ≤ R := by
      calc |z| * T ≤ |z| * (R / |z|) := mul_le_mul_of_nonneg_left (min_le_right _ _) haz.le
        _ = R := by field_simp
    have hzT : 0 ≤ |z| * T := by positivity
    have h1 : (∫ t in (-T)..T, f (R + |z| * t) (|z| * t) (z ^ 2 * (1 + t * t)) * |z|)
        = ∫ a in (R - |z| * T)..(R + |z| * T), g a := by
      have e : ∀ t : ℝ, f (R + |z| * t) (|z| * t) (z ^ 2 * (1 + t * t)) * |z| = |z| * g (R + |z| * t) := by
        intro t
        have e1 : R + |z| * t - R = |z| * t := by ring
        have e2 : (|z| * t) ^ 2 + z ^ 2 = z ^ 2 * (1 + t * t) := by rw [mul_pow, sq_abs]; ring
        simp only [hg, e1, e2]; ring
      simp_rw [e]
      rw [intervalIntegral.integral_const_mul, intervalIntegral.integral_comp_add_mul g haz.ne' R, smul_eq_mul, ← mul_assoc,
        mul_inv_cancel₀ haz.ne', one_mul, mul_neg, ← sub_eq_add_neg]
    rw [h1, add_comm (∫ a in (R - |z| * T)..(R + |z| * T), g a),
      intervalIntegral.integral_add_adjacent_intervals (sub_ii hi le_rfl (by linarith)) (sub_ii hi (by linarith) (by linarith)),
      intervalIntegral.integral_add_adjacent_intervals (sub_ii hi le_rfl (by linarith)) (sub_ii hi (by linarith) (by linarith))]
    exact intervalIntegral.integral_interval_add_Ioi hi (sub_int hi hR2)

theorem shift_image (R : ℝ) : (fun a : ℝ => a - R) '' Ioi 0 = Ioi (-R) := by
  ext x; simp only [mem_image, mem_Ioi]
  exact ⟨fun ⟨y, h, e⟩ => by linarith, fun h => ⟨x + R, by linarith, by ring⟩⟩

theorem sinh_image {R az : ℝ} (haz : 0 < az) :
    (fun t : ℝ => az * sinh t) '' Ioc 0 (arsinh (R / az)) = Ioc 0 R := by
  ext x; simp only [mem_image, mem_Ioc]
  constructor
  · rintro ⟨t, ⟨h0, h1⟩, rfl⟩
    refine ⟨mul_pos haz (sinh_pos_iff.2 h0), ?_⟩
    have : sinh t ≤ R / az := by rw [← sinh_arsinh (R / az)]; exact sinh_le_sinh.2 h1
    rw [le_div_iff₀ haz] at this; linarith
  · rintro ⟨h0, h1⟩
    refine ⟨arsinh (x / az), ⟨arsinh_pos_iff.2 (by positivity), arsinh_le_arsinh.2 (by gcongr)⟩, ?_⟩
    rw [sinh_arsinh]; field_simp

theorem finitePart_eq {f : ℝ → ℝ} {R az C : ℝ} (hR : 0 < R) (haz : 0 < az)
    (hi : IntegrableOn (fun a => f (a - R)) (Ioi 0)) :
    finitePartQuad f R az C = -4 * ∫ a in Ioi (0 : ℝ), f (a - R) := by
  have hd : ∀ x ∈ Ioi (0 : ℝ), HasDerivWithinAt (fun a : ℝ => a - R) 1 (Ioi 0) x :=
    fun x _ => ((hasDerivAt_id x).sub_const R).hasDerivWithinAt
  have hinj : InjOn (fun a : ℝ => a - R) (Ioi 0) := fun x _ y _ h => sub_left_injective h
  have hI : IntegrableOn f (Ioi (-R)) := by
    rw [← shift_image R, integrableOn_image_iff_integrableOn_abs_deriv_smul measurableSet_Ioi hd hinj]
    simpa using hi
  have hII : ∫ a in Ioi (0 : ℝ), f (a - R) = ∫ d in Ioi (-R), f d := by
    rw [← shift_image R, integral_image_eq_integral_abs_deriv_smul measurableSet_Ioi hd hinj]
    simp
  have hsub : IntegrableOn f (Ioi R) := hI.mono_set (Ioi_subset_Ioi (by linarith))
  have hii : ∀ b c : ℝ, -R ≤ b → b ≤ c → IntervalIntegrable f volume b c := fun b c hb hc =>
    (intervalIntegrable_iff_integrableOn_Ioc_of_le hc).2 (hI.mono_set fun _ hx => lt_of_le_of_lt hb hx.1)
  unfold finitePartQuad
  simp only
  rw [if_neg haz.ne', hII]
  congr 1
  have h1 : (∫ t in (0 : ℝ)..(arsinh (R / az)), (f (az * sinh t) + f (-(az * sinh t))) * az * cosh t)
      = ∫ u in (0 : ℝ)..R, (f u + f (-u)) := by
    rw [intervalIntegral.integral_of_le (arsinh_nonneg_iff.2 (by positivity)), intervalIntegral.integral_of_le hR.le,
      ← sinh_image (R := R) haz, integral_image_eq_integral_abs_deriv_smul (f' := fun t => az * cosh t) measurableSet_Ioc
        (fun t _ => ((hasDerivAt_sinh t).const_mul az).hasDerivWithinAt)
        (fun x _ y _ h => sinh_injective (mul_left_cancel₀ haz.ne' h))]
    refine setIntegral_congr_fun measurableSet_Ioc fun t _ => ?_
    have : 0 < az * cosh t := mul_pos haz (cosh_pos t)
    simp only [abs_of_pos this, smul_eq_mul]; ring
  rw [h1]
  have hn : IntervalIntegrable (fun u => f (-u)) volume 0 R := by
    have := (hii (-R) 0 le_rfl (by linarith)).comp_sub_left 0
    simpa using this.symm
  rw [intervalIntegral.integral_add (hii 0 R (by linarith) hR.le) hn, intervalIntegral.integral_comp_neg, neg_zero, add_comm (∫ u in (0 : ℝ)..R, f u),
    intervalIntegral.integral_add_adjacent_intervals (hii _ _ le_rfl (by linarith)) (hii _ _ (by linarith) hR.le)]
  exact intervalIntegral.integral_interval_add_Ioi hI hsub

/-! ### The integrands -/

section
variable {S : ℝ → ℝ} {a R z : ℝ} (ha : 0 < a) (hR : 0 < R) (hz : z ≠ 0)
include ha hR hz
theorem km1_eq : ellipkm1 (((a - R) ^ 2 + z ^ 2) / ((a + R) ^ 2 + z ^ 2)) = κ a R z := by
  have h := one_sub ha (ring_ok (z := z) hR hz)
  unfold ellipkm1 κ
  congr 1
  have e : ((a - R) ^ 2 + z ^ 2) / ((a + R) ^ 2 + z ^ 2) = Q a R z / P a R z := by
    unfold P Q; congr 1 <;> ring
  rw [e, ← h]; ring
theorem min_eq : min (4 * a * R / ((a + R) ^ 2 + z ^ 2)) 1 = mm a R z := by
  have e : 4 * a * R / ((a + R) ^ 2 + z ^ 2) = mm a R z := by unfold mm P; congr 1 <;> ring
  rw [e]
  exact min_eq_left (m_lt ha (ring_ok hR hz)).le
theorem sq_eq' : √((a + R) ^ 2 + z ^ 2) = 1 / iw a R z := by
  unfold iw P; rw [one_div_one_div]; congr 1; ring
theorem iw_pos : 0 < iw a R z := by
  unfold iw; have := sqrt_pos.2 (Ppos ha (ring_ok (z := z) hR hz)); positivity
theorem p15 : ((a + R) ^ 2 + z ^ 2) ^ (1.5 : ℝ) = P a R z / iw a R z := by
  have hp := Ppos ha (ring_ok (z := z) hR hz)
  have e : (a + R) ^ 2 + z ^ 2 = P a R z := by unfold P; ring
  rw [e, show (1.5 : ℝ) = 1 + 1 / 2 by norm_num, rpow_add hp, rpow_one, ← sqrt_eq_rpow]
  unfold iw
  rw [div_div_eq_mul_div, div_one]

theorem v_int : -4 * (a * S a / √((R + a) ^ 2 + z ^ 2) * ellipkm1 (((a - R) ^ 2 + z ^ 2) / ((R + a) ^ 2 + z ^ 2)))
    = S a * Ring.evaluate a R z := by
  rw [add_comm R a, km1_eq ha hR hz, sq_eq' ha hR hz, evaluate_eq hR]
  have := (iw_pos ha hR hz).ne'
  field_simp
theorem Rf_int : 2 * rforceint S R z a = S a * Ring.Rforce a R z := by
  unfold rforceint
  simp only
  rw [km1_eq ha hR hz, min_eq ha hR hz, sq_eq' ha hR hz, Rforce_eq ha (ring_ok hR hz),
    show ellipe (mm a R z) = ε a R z from rfl]
  have := (iw_pos ha hR hz).ne'
  have hq := (ring_ok (a := a) hR hz).2.ne'
  have e : (a - R) ^ 2 + z ^ 2 = Q a R z := by unfold Q; ring
  rw [e]
  generalize Q a R z = q at *
  field_simp
  ring
theorem zf_int : -4 * z * (a * S a * ellipe (min (4 * a * R / ((a + R) ^ 2 + z ^ 2)) 1) / ((a - R) ^ 2 + z ^ 2)
    / √((a + R) ^ 2 + z ^ 2)) = S a * Ring.zforce a R z := by
  rw [min_eq ha hR hz, sq_eq' ha hR hz, zforce_eq ha (ring_ok hR hz), show ellipe (mm a R z) = ε a R z from rfl]
  have := (iw_pos ha hR hz).ne'
  have hq := (ring_ok (a := a) hR hz).2.ne'
  have e : (a - R) ^ 2 + z ^ 2 = Q a R z := by unfold Q; ring
  rw [e]
  generalize Q a R z = q at *
  field_simp
theorem Rz_int : -2 * z * (a * S a * (-((a - R) * (16 * R ^ 2 * R + 4 * R * z ^ 2 + 4 * R * (a - R) * (a - R))
        + (a - R) * (a - R) * (12 * R ^ 2 + 2 * z ^ 2) + (a - R) ^ 4 - 4 * R ^ 2 * z ^ 2 + z ^ 2 * z ^ 2)
        * ellipe (min (4 * a * R / ((a + R) ^ 2 + z ^ 2)) 1)
      + ((a - R) ^ 2 + z ^ 2) * (2 * R * (a - R) + ((a - R) ^ 2 + z ^ 2))
        * ellipkm1 (((a - R) ^ 2 + z ^ 2) / ((a + R) ^ 2 + z ^ 2))) / R / ((a - R) ^ 2 + z ^ 2) ^ 2
      / ((a + R) ^ 2 + z ^ 2) ^ (1.5 : ℝ)) = S a * Ring.Rzderiv a R z := by
  rw [min_eq ha hR hz, km1_eq ha hR hz, p15 ha hR hz, Rzderiv_eq ha (ring_ok hR hz), show ellipe (mm a R z) = ε a R z from rfl]
  have := (iw_pos ha hR hz).ne'
  have hq := (ring_ok (a := a) hR hz).2.ne'
  have hp := (Ppos ha (ring_ok (z := z) hR hz)).ne'
  have e : (a - R) ^ 2 + z ^ 2 = Q a R z := by unfold Q; ring
  rw [e]
  generalize ε a R z = u at *
  generalize κ a R z = k at *
  generalize iw a R z = w at *
  unfold P Q at *
  field_simp
  ring
theorem z2_int : -4 * z2derivint S R (z ^ 2) (a - R) = S a * Ring.z2deriv a R z := by
  unfold z2derivint
  simp only
  rw [show 2 * R + (a - R) = a + R by ring, show R + (a - R) = a by ring,
    show (a - R) * (a - R) + z ^ 2 = (a - R) ^ 2 + z ^ 2 by ring]
  rw [min_eq ha hR hz, km1_eq ha hR hz, p15 ha hR hz, z2deriv_eq ha (ring_ok hR hz), show ellipe (mm a R z) = ε a R z from rfl]
  have := (iw_pos ha hR hz).ne'
  have hq := (ring_ok (a := a) hR hz).2.ne'
  have hp := (Ppos ha (ring_ok (z := z) hR hz)).ne'
  have e : (a - R) ^ 2 + z ^ 2 = Q a R z := by unfold Q; ring
  rw [e]
  generalize ε a R z = u at *
  generalize κ a R z = k at *
  generalize iw a R z = w at *
  unfold P Q at *
  field_simp
  ring
theorem R2_int : -4 * r2derivint S R (z ^ 2) (a - R) = S a * Ring.R2deriv a R z := by
  unfold r2derivint
  simp only
  rw [show 2 * R + (a - R) = a + R by ring, show R + (a - R) = a by ring,
    show (a - R) * (a - R) + z ^ 2 = (a - R) ^ 2 + z ^ 2 by ring]
  rw [min_eq ha hR hz, km1_eq ha hR hz, p15 ha hR hz, show Ring.R2deriv a R z = Ring.Rforce a R z / R - Ring.z2deriv a R z by
      have := laplace ha (ring_ok (z := z) hR hz); linarith,
    Rforce_eq ha (ring_ok hR hz), z2deriv_eq ha (ring_ok hR hz), show ellipe (mm a R z) = ε a R z from rfl]
  have := (iw_pos ha hR hz).ne'
  have hq := (ring_ok (a := a) hR hz).2.ne'
  have hp := (Ppos ha (ring_ok (z := z) hR hz)).ne'
  have e : (a - R) ^ 2 + z ^ 2 = Q a R z := by unfold Q; ring
  rw [e]
  generalize ε a R z = u at *
  generalize κ a R z = k at *
  generalize iw a R z = w at *
  unfold P Q at *
  field_simp
  ring
end

/-! ### The methods -/

theorem int_of {c : ℝ} (hc : c ≠ 0) {f g : ℝ → ℝ} (e : ∀ a, 0 < a → c * f a = g a) (hg : IntegrableOn g (Ioi 0)) :
    IntegrableOn f (Ioi 0) ∧ c * ∫ a in Ioi (0 : ℝ), f a = ∫ a in Ioi (0 : ℝ), g a := by
  have h1 : IntegrableOn (fun a => c * f a) (Ioi 0) := hg.congr_fun (fun a ha => (e a ha).symm) measurableSet_Ioi
  refine ⟨?_, ?_⟩
  · have : IntegrableOn (fun a => c⁻¹ * (c * f a)) (Ioi 0) := h1.const_mul c⁻¹
    refine IntegrableOn.congr_fun this (fun a _ => ?_) measurableSet_Ioi
    simp only [← mul_assoc, inv_mul_cancel₀ hc, one_mul]
  · rw [← integral_const_mul]
    exact setIntegral_congr_fun measurableSet_Ioi fun a ha => e a ha

section
variable {S : ℝ → ℝ} (h : Fin S) {R z : ℝ} (hR : 0 < R) (hz : z ≠ 0)
include h hR hz
theorem val_sup : evaluate S R z = sup S Ring.evaluate R z := by
  unfold evaluate
  rw [if_neg (fun k => hz k.2)]
  obtain ⟨h1, h2⟩ := int_of (by norm_num) (fun a ha => v_int (S := S) ha hR hz) (int_v h hR hz)
  rw [quadApeak_eq hR hz h1]
  exact h2
theorem Rf_sup : Rforce S R z = sup S Ring.Rforce R z := by
  unfold Rforce
  obtain ⟨h1, h2⟩ := int_of (by norm_num) (fun a ha => Rf_int (S := S) ha hR hz) (int_Rf h hR hz)
  rw [intervalIntegral.integral_interval_add_Ioi h1 (sub_int h1 (by positivity))]
  exact h2
theorem zf_sup : zforce S R z = sup S Ring.zforce R z := by
  unfold zforce
  rw [if_neg hz]
  obtain ⟨h1, h2⟩ := int_of (mul_ne_zero (by norm_num) hz) (fun a ha => zf_int (S := S) ha hR hz) (int_zf h hR hz)
  simp only
  rw [quadApeak_eq hR hz h1]
  exact h2
theorem Rz_sup : Rzderiv S R z = sup S Ring.Rzderiv R z := by
  unfold Rzderiv
  obtain ⟨h1, h2⟩ := int_of (mul_ne_zero (by norm_num) hz) (fun a ha => Rz_int (S := S) ha hR hz) (int_Rz h hR hz)
  simp only
  rw [quadApeak_eq hR hz h1]
  exact h2
end

section
variable {S : ℝ → ℝ} (h : Fin S) {R z : ℝ} (hR : 0 < R) (hz : 1e-9 ≤ |z|)
include h hR hz
omit h hR in
theorem floor_eq : floorZ z = |z| := if_neg (not_lt.2 hz)
omit h hR in
theorem floor_ne : z ≠ 0 := fun k => by rw [k, abs_zero] at hz; norm_num at hz
theorem R2_sup : R2deriv S R z = sup S Ring.R2deriv R z := by
  have hz0 := floor_ne hz
  unfold R2deriv
  rw [floor_eq hz, sq_abs]
  obtain ⟨h1, h2⟩ := int_of (by norm_num) (fun a ha => R2_int (S := S) ha hR hz0) (int_R2 h hR hz0)
  rw [finitePart_eq hR (abs_pos.2 hz0) h1]
  exact h2
theorem z2_sup : z2deriv S R z = sup S Ring.z2deriv R z := by
  have hz0 := floor_ne hz
  unfold z2deriv
  rw [floor_eq hz, sq_abs]
  obtain ⟨h1, h2⟩ := int_of (by norm_num) (fun a ha => z2_int (S := S) ha hR hz0) (int_z2 h hR hz0)
  rw [finitePart_eq hR (abs_pos.2 hz0) h1]
  exact h2
end

end Verif.AnyDisk
