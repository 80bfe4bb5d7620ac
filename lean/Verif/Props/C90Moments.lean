import Verif.Props.C90
import Mathlib.Analysis.SpecialFunctions.Gaussian.GaussianIntegral

set_option autoImplicit false

/-!
# C90: velocity moments and marginal distributions
-/

noncomputable section
namespace Verif
open Real Filter Topology MeasureTheory QuasiIso C90Spec
open SCF (Rule)
open C88Spec (GaussLegendre)

namespace C90aux

/-- Half ranges of the integrals of an even function times even powers. -/
theorem quarter {f : ℝ → ℝ → ℝ → ℝ} (he : EvenV f) {a b : ℝ} (ha : 0 ≤ a) (hb : 0 ≤ b) (T : ℝ) {n l : ℕ} (m : ℕ) (hn : n % 2 = 0) (hl : l % 2 = 0) :
    ∫ vT in (0 : ℝ)..T, ∫ vR in (0 : ℝ)..a, ∫ vz in (0 : ℝ)..b, vR ^ n * vT ^ m * vz ^ l * f vR vT vz = moment f a T b n m l / 4 := by
  unfold moment
  have i1 : ∀ vR vT, ∫ vz in (-b)..b, vR ^ n * vT ^ m * vz ^ l * f vR vT vz = 2 * ∫ vz in (0 : ℝ)..b, vR ^ n * vT ^ m * vz ^ l * f vR vT vz := fun vR vT =>
    integral_even (fun vz => by rw [(he vR vT vz).2, (Nat.even_iff.2 hl).neg_pow]) hb
  have i2 : ∀ vT, ∫ vR in (-a)..a, ∫ vz in (0 : ℝ)..b, vR ^ n * vT ^ m * vz ^ l * f vR vT vz
      = 2 * ∫ vR in (0 : ℝ)..a, ∫ vz in (0 : ℝ)..b, vR ^ n * vT ^ m * vz ^ l * f vR vT vz := fun vT =>
    integral_even (fun vR => by simp only [(he vR vT _).1, (Nat.even_iff.2 hn).neg_pow]) ha
  simp only [i1, intervalIntegral.integral_const_mul, i2]
  ring

theorem odd_zero {f : ℝ → ℝ → ℝ → ℝ} (he : EvenV f) (a b T : ℝ) {n l : ℕ} (m : ℕ) (h : n % 2 = 1 ∨ l % 2 = 1) : moment f a T b n m l = 0 := by
  unfold moment
  rcases h with h | h
  · have : ∀ vT, ∫ vR in (-a)..a, ∫ vz in (-b)..b, vR ^ n * vT ^ m * vz ^ l * f vR vT vz = 0 := fun vT =>
      integral_odd (fun vR => by
        simp only [(he vR vT _).1, (Nat.odd_iff.2 h).neg_pow, ← intervalIntegral.integral_neg]
        exact intervalIntegral.integral_congr fun vz _ => by ring) a
    simp [this]
  · have : ∀ vR vT, ∫ vz in (-b)..b, vR ^ n * vT ^ m * vz ^ l * f vR vT vz = 0 := fun vR vT =>
      integral_odd (fun vz => by rw [(he vR vT vz).2, (Nat.odd_iff.2 h).neg_pow]; ring) b
    simp [this]

theorem one_moment (a T b : ℝ) : moment (fun _ _ _ => 1) a T b 0 0 0 = 4 * a * T * b := by
  simp [moment]; ring

theorem one_cont (a T b : ℝ) : Cont (fun _ _ _ => 1) a T b := continuousOn_const

/-- An object with constant distribution function. -/
def flat (ad : Bool) : Obj := ⟨⟨1, 1, 1, 1, 1, 1, 1, true⟩, fun _ => 1, ad, fun _ _ _ _ _ => 1⟩

theorem flat_s (ad : Bool) : (flat ad).sigmaR1 1 = 1 ∧ (flat ad).sigmaz1 1 = 1 := by simp [Obj.sigmaR1, Obj.sigmaz1, flat]

end C90aux
open C90aux

/-! ### Gauss-Legendre moments -/

/-- For an action-angle object that is not adiabatic, the moments with Gauss-Legendre integration converge, as the order grows, to the
integral of the distribution function times powers of the velocities over the stated range; odd orders are an error. -/
theorem C90_moments {leg : ℕ → Rule} (hl : GaussLegendre leg) (o : Obj) (R z : ℝ) (n m l : ℕ) (ns : Option ℝ) {T : ℝ} (hT : 0 < T)
    (hs : 0 < o.p.sr) (hz : 0 < o.p.sz) (hn : 0 < ns.getD 4) (ha : o.adiab = false)
    (hf : Cont (fun vR vT vz => o.f R vR vT z vz) (ns.getD 4 * o.sigmaR1 R) T (ns.getD 4 * o.sigmaz1 R)) :
    (∀ k, o.momentGL leg R z n m l ns (2 * k + 1) T = .error .value) ∧
    ∃ v : ℕ → ℝ, (∀ k, o.momentGL leg R z n m l ns (2 * k) T = .ok (v k)) ∧
      Tendsto v atTop (𝓝 (moment (fun vR vT vz => o.f R vR vT z vz) (ns.getD 4 * o.sigmaR1 R) T (ns.getD 4 * o.sigmaz1 R) n m l)) := by
  refine ⟨fun k => ?_, ?_⟩
  · rw [Obj.momentGL, if_neg (by simp [ha]), if_pos (by omega)]
  obtain ⟨v, h1, h2⟩ := moment_lim (C88aux.gauss hl) o R z n m l ns hT hs hz hn (by simp [ha]) hf
  refine ⟨v, h1, ?_⟩
  unfold moment
  simpa [ha, lo] using h2

example : ∃ leg, GaussLegendre leg ∧ ∃ v : ℕ → ℝ, (∀ k, (flat false).momentGL leg 1 0 0 0 0 none (2 * k) 1 = .ok (v k)) ∧ Tendsto v atTop (𝓝 64) := by
  obtain ⟨leg, h⟩ := C88aux.exists_leg
  obtain ⟨v, h1, h2⟩ := (C90_moments h (flat false) 1 0 0 0 0 none one_pos one_pos one_pos (by norm_num) rfl (one_cont _ _ _)).2
  refine ⟨leg, h, v, h1, ?_⟩
  rw [(flat_s false).1, (flat_s false).2] at h2
  have := one_moment (4 * 1) 1 (4 * 1)
  norm_num at this
  norm_num [flat] at h2 ⊢
  rwa [this] at h2

/-- For adiabatic action-angle objects and a distribution even in the radial and vertical velocity, the moments converge to a quarter
of the integral: missing is the factor two for each half range. -/
theorem C90_moments_adiabatic_partial {leg : ℕ → Rule} (hl : GaussLegendre leg) (o : Obj) (R z : ℝ) (n m l : ℕ) (ns : Option ℝ) {T : ℝ} (hT : 0 < T)
    (hs : 0 < o.p.sr) (hz : 0 < o.p.sz) (hn : 0 < ns.getD 4) (ha : o.adiab = true) (he : EvenV fun vR vT vz => o.f R vR vT z vz)
    (hf : Cont (fun vR vT vz => o.f R vR vT z vz) (ns.getD 4 * o.sigmaR1 R) T (ns.getD 4 * o.sigmaz1 R)) :
    ∃ v : ℕ → ℝ, (∀ k, o.momentGL leg R z n m l ns (2 * k) T = .ok (v k)) ∧
      Tendsto v atTop (𝓝 (moment (fun vR vT vz => o.f R vR vT z vz) (ns.getD 4 * o.sigmaR1 R) T (ns.getD 4 * o.sigmaz1 R) n m l / 4)) := by
  have pa : 0 < ns.getD 4 * o.sigmaR1 R := mul_pos hn (sig_pos hs R)
  have pb : 0 < ns.getD 4 * o.sigmaz1 R := mul_pos hn (sigz_pos hz R)
  by_cases hp : n % 2 = 1 ∨ l % 2 = 1
  · refine ⟨fun _ => 0, fun k => by rw [Obj.momentGL, if_pos ⟨ha, hp⟩], ?_⟩
    rw [odd_zero he _ _ _ _ hp, zero_div]
    exact tendsto_const_nhds
  · obtain ⟨v, h1, h2⟩ := moment_lim (C88aux.gauss hl) o R z n m l ns hT hs hz hn (fun h => hp h.2) hf
    refine ⟨v, h1, ?_⟩
    rw [← quarter he pa.le pb.le T m (by omega) (by omega)]
    simpa [ha, lo] using h2

/-- With adiabatic actions `density` is not the integral of the distribution function over velocity: it tends to a quarter of it,
while the marginal distribution of the tangential velocity integrates to the full value. -/
theorem C90_adiabatic_fails : ∃ (leg : ℕ → Rule) (o : Obj) (R z : ℝ), GaussLegendre leg ∧ o.adiab = true ∧ (EvenV fun vR vT vz => o.f R vR vT z vz) ∧
    ∃ v : ℕ → ℝ, (∀ k, o.density leg R z none (2 * k) 1 = .ok (v k)) ∧ Tendsto v atTop (𝓝 16) ∧
      moment (fun vR vT vz => o.f R vR vT z vz) (4 * o.sigmaR1 R) 1 (4 * o.sigmaz1 R) 0 0 0 = 64 ∧
      ∀ k vT, 0 < k → o.pvT leg vT R z (2 * k) 4 = .ok 64 := by
  obtain ⟨leg, h⟩ := C88aux.exists_leg
  have s := flat_s true
  have e : EvenV fun vR vT vz => (flat true).f 1 vR vT 0 vz := fun _ _ _ => ⟨rfl, rfl⟩
  obtain ⟨v, h1, h2⟩ := C90_moments_adiabatic_partial h (flat true) 1 0 0 0 0 none one_pos one_pos one_pos (by norm_num) rfl e (one_cont _ _ _)
  have mo := one_moment (4 * 1) 1 (4 * 1)
  norm_num at mo
  refine ⟨leg, flat true, 1, 0, h, rfl, e, v, h1, ?_, ?_, fun k vT hk => ?_⟩
  · rw [s.1, s.2] at h2
    norm_num [flat] at h2 ⊢
    rw [mo] at h2
    norm_num at h2
    exact h2
  · rw [s.1, s.2]
    norm_num [flat]
    exact mo
  · have w : ((axis true leg (2 * k) (4 * 1)).map fun q => (1 : ℝ) * q.2).sum = 2 := by
      have s1 := S1 false leg k (4 * 1) (fun _ => 1)
      refine s1.trans ?_
      simp only [E, ord, Bool.false_eq_true, if_false, mul_one]
      exact QuadConv.wsum (C88aux.gauss h _) (by omega)
    have w' : ((axis true leg (2 * k) (4 * 1)).map fun q => q.2).sum = 2 := by simpa using w
    rw [Obj.pvT, if_neg (by omega)]
    simp only [s.1, s.2]
    simp only [flat, fac, if_true, one_mul]
    congr 1
    simp only [List.sum_map_mul_right, List.sum_map_mul_left, w']
    norm_num

/-- Mean velocities and dispersions with Gauss-Legendre integration: the ratio of each moment to the density converges to the ratio
of the integrals, over four dispersions, also for adiabatic actions. -/
theorem C90_means {leg : ℕ → Rule} (hl : GaussLegendre leg) (o : Obj) (R z : ℝ) (n m l : ℕ) (ns : Option ℝ) {T : ℝ} (hT : 0 < T)
    (hs : 0 < o.p.sr) (hz : 0 < o.p.sz) (he : o.adiab = true → EvenV fun vR vT vz => o.f R vR vT z vz)
    (hf : Cont (fun vR vT vz => o.f R vR vT z vz) (4 * o.sigmaR1 R) T (4 * o.sigmaz1 R))
    (h0 : moment (fun vR vT vz => o.f R vR vT z vz) (4 * o.sigmaR1 R) T (4 * o.sigmaz1 R) 0 0 0 ≠ 0) :
    ∃ v : ℕ → ℝ, (∀ k, o.ratioGL leg R z n m l ns (2 * k) T = .ok (v k)) ∧
      Tendsto v atTop (𝓝 (moment (fun vR vT vz => o.f R vR vT z vz) (4 * o.sigmaR1 R) T (4 * o.sigmaz1 R) n m l
        / moment (fun vR vT vz => o.f R vR vT z vz) (4 * o.sigmaR1 R) T (4 * o.sigmaz1 R) 0 0 0)) := by
  rcases ha : o.adiab with _ | _
  · obtain ⟨v, h1, h2⟩ := (C90_moments hl o R z n m l none hT hs hz (by norm_num) ha hf).2
    obtain ⟨w, h3, h4⟩ := (C90_moments hl o R z 0 0 0 none hT hs hz (by norm_num) ha hf).2
    refine ⟨fun k => v k / w k, fun k => ?_, h2.div h4 h0⟩
    rw [Obj.ratioGL, h1, h3]; rfl
  · obtain ⟨v, h1, h2⟩ := C90_moments_adiabatic_partial hl o R z n m l none hT hs hz (by norm_num) ha (he ha) hf
    obtain ⟨w, h3, h4⟩ := C90_moments_adiabatic_partial hl o R z 0 0 0 none hT hs hz (by norm_num) ha (he ha) hf
    refine ⟨fun k => v k / w k, fun k => ?_, ?_⟩
    · rw [Obj.ratioGL, h1, h3]; rfl
    · have := h2.div h4 (div_ne_zero h0 (by norm_num))
      rw [div_div_div_cancel_right₀ (by norm_num)] at this
      exact this

example : ∃ leg, GaussLegendre leg ∧ ∃ v : ℕ → ℝ, (∀ k, (flat true).meanvT leg 1 0 (some 3) (2 * k) 1 = .ok (v k)) ∧
    Tendsto v atTop (𝓝 (moment (fun _ _ _ => 1) (4 * 1) 1 (4 * 1) 0 1 0 / moment (fun _ _ _ => 1) (4 * 1) 1 (4 * 1) 0 0 0)) := by
  obtain ⟨leg, h⟩ := C88aux.exists_leg
  have s := flat_s true
  obtain ⟨v, h1, h2⟩ := C90_means h (flat true) 1 0 0 1 0 (some 3) one_pos one_pos one_pos (fun _ _ _ _ => ⟨rfl, rfl⟩) (one_cont _ _ _)
    (by rw [s.1, s.2]; show moment (fun _ _ _ => 1) _ _ _ 0 0 0 ≠ 0; rw [one_moment]; norm_num)
  rw [s.1, s.2] at h2
  exact ⟨leg, h, v, h1, h2⟩

/-- The tangential dispersion converges to the variance of the tangential velocity, and the tilt to its value for the exact moments. -/
theorem C90_sigmaT2 {leg : ℕ → Rule} (hl : GaussLegendre leg) (o : Obj) (R z : ℝ) (ns : Option ℝ) {T : ℝ} (hT : 0 < T)
    (hs : 0 < o.p.sr) (hz : 0 < o.p.sz) (he : o.adiab = true → EvenV fun vR vT vz => o.f R vR vT z vz)
    (hf : Cont (fun vR vT vz => o.f R vR vT z vz) (4 * o.sigmaR1 R) T (4 * o.sigmaz1 R))
    (M : ℕ → ℕ → ℕ → ℝ) (hM : ∀ n m l, M n m l = moment (fun vR vT vz => o.f R vR vT z vz) (4 * o.sigmaR1 R) T (4 * o.sigmaz1 R) n m l)
    (h0 : M 0 0 0 ≠ 0) :
    (∃ v : ℕ → ℝ, (∀ k, o.sigmaT2 leg R z ns (2 * k) T = .ok (v k)) ∧ Tendsto v atTop (𝓝 (M 0 2 0 / M 0 0 0 - (M 0 1 0 / M 0 0 0) ^ 2))) ∧
    (M 2 0 0 ≠ M 0 0 2 → ∃ v : ℕ → ℝ, (∀ k, o.tilt leg R z ns (2 * k) T = .ok (v k)) ∧
      Tendsto v atTop (𝓝 (1 / 2 * arctan (2 * M 1 0 1 / (M 2 0 0 - M 0 0 2))))) := by
  have key := fun n m l => C90_means hl o R z n m l ns hT hs hz he hf (hM 0 0 0 ▸ h0)
  simp only [← hM] at key
  constructor
  · obtain ⟨a, a1, a2⟩ := key 0 1 0
    obtain ⟨b, b1, b2⟩ := key 0 2 0
    refine ⟨fun k => b k - a k ^ 2, fun k => ?_, b2.sub (a2.pow 2)⟩
    rw [Obj.sigmaT2, a1, b1]; rfl
  · intro hne
    obtain ⟨a, a1, a2⟩ := key 2 0 0
    obtain ⟨b, b1, b2⟩ := key 0 0 2
    obtain ⟨c, c1, c2⟩ := key 1 0 1
    refine ⟨fun k => tiltOf (a k) (b k) (c k), fun k => ?_, ?_⟩
    · rw [Obj.tilt, Obj.sigmaR2, Obj.sigmaz2, Obj.sigmaRz, a1, b1, c1]; rfl
    · have d := (c2.const_mul 2).div (a2.sub b2) (by rw [← sub_div]; exact div_ne_zero (sub_ne_zero.2 hne) h0)
      rw [← sub_div, ← mul_div_assoc, div_div_div_cancel_right₀ h0] at d
      have := ((continuous_arctan.tendsto _).comp d).const_mul (1 / 2)
      refine this.congr fun k => ?_
      simp only [tiltOf, Function.comp]
      norm_num

example : ∃ leg, GaussLegendre leg ∧ ∃ v : ℕ → ℝ, (∀ k, (flat true).sigmaT2 leg 1 0 none (2 * k) 1 = .ok (v k)) ∧ ∃ x, Tendsto v atTop (𝓝 x) := by
  obtain ⟨leg, h⟩ := C88aux.exists_leg
  have s := flat_s true
  obtain ⟨v, h1, h2⟩ := (C90_sigmaT2 h (flat true) 1 0 none one_pos one_pos one_pos (fun _ _ _ _ => ⟨rfl, rfl⟩) (one_cont _ _ _) _ (fun _ _ _ => rfl)
    (by rw [s.1, s.2]; show moment (fun _ _ _ => 1) _ _ _ 0 0 0 ≠ 0; rw [one_moment]; norm_num)).1
  exact ⟨leg, h, v, h1, _, h2⟩

/-- The number of dispersions to integrate over, an argument of the mean velocities and dispersions, has no effect with Gauss-Legendre
integration: asking for one dispersion gives the result for four. -/
theorem C90_nsigma_fails : ∃ (leg : ℕ → Rule) (o : Obj) (R z : ℝ), GaussLegendre leg ∧ o.adiab = false ∧
    ∃ v : ℕ → ℝ, (∀ k, o.sigmaR2 leg R z (some 1) (2 * k) 1 = .ok (v k)) ∧ Tendsto v atTop (𝓝 (16 / 3)) ∧
      moment (fun vR vT vz => o.f R vR vT z vz) (1 * o.sigmaR1 R) 1 (1 * o.sigmaz1 R) 2 0 0
        / moment (fun vR vT vz => o.f R vR vT z vz) (1 * o.sigmaR1 R) 1 (1 * o.sigmaz1 R) 0 0 0 = 1 / 3 := by
  obtain ⟨leg, h⟩ := C88aux.exists_leg
  have s := flat_s false
  have two : ∀ a : ℝ, moment (fun _ _ _ => 1) a 1 a 2 0 0 = 4 * a ^ 4 / 3 := fun a => by
    simp [moment]; ring
  obtain ⟨v, h1, h2⟩ := C90_means h (flat false) 1 0 2 0 0 (some 1) one_pos one_pos one_pos (fun _ _ _ _ => ⟨rfl, rfl⟩) (one_cont _ _ _)
    (by rw [s.1, s.2]; show moment (fun _ _ _ => 1) _ _ _ 0 0 0 ≠ 0; rw [one_moment]; norm_num)
  refine ⟨leg, flat false, 1, 0, h, rfl, v, h1, ?_, ?_⟩
  · rw [s.1, s.2] at h2
    have e : moment (fun _ _ _ => 1) (4 * 1) 1 (4 * 1) 2 0 0 / moment (fun _ _ _ => 1) (4 * 1) 1 (4 * 1) 0 0 0 = 16 / 3 := by
      rw [two, one_moment]; norm_num
    rw [← e]
    exact h2
  · rw [s.1, s.2]
    show moment (fun _ _ _ => 1) _ _ _ 2 0 0 / moment (fun _ _ _ => 1) _ _ _ 0 0 0 = 1 / 3
    rw [two, one_moment]; norm_num

/-! ### Tilt -/

/-- The tilt is the direction of a principal axis of the velocity ellipse within 45 degrees of the radial direction: along it and
across it the velocities are uncorrelated.  It is the long axis when the radial dispersion exceeds the vertical one. -/
theorem C90_tilt (r2 z2 rz : ℝ) (h : r2 ≠ z2) :
    let t := tiltOf r2 z2 rz;
    |t| < π / 4 ∧ -r2 * (cos t * sin t) + rz * (cos t ^ 2 - sin t ^ 2) + z2 * (sin t * cos t) = 0 ∧
    (z2 < r2 → r2 * sin t ^ 2 - 2 * rz * (sin t * cos t) + z2 * cos t ^ 2 < r2 * cos t ^ 2 + 2 * rz * (sin t * cos t) + z2 * sin t ^ 2) ∧
    (r2 < z2 → r2 * cos t ^ 2 + 2 * rz * (sin t * cos t) + z2 * sin t ^ 2 < r2 * sin t ^ 2 - 2 * rz * (sin t * cos t) + z2 * cos t ^ 2) := by
  intro t
  have hd : r2 - z2 ≠ 0 := sub_ne_zero.2 h
  have ht : 2 * t = arctan (2 * rz / (r2 - z2)) := by simp only [t, tiltOf]; norm_num; ring
  have hb := arctan_mem_Ioo (2 * rz / (r2 - z2))
  have htan : tan (2 * t) = 2 * rz / (r2 - z2) := by rw [ht, tan_arctan]
  have hc : 0 < cos (2 * t) := by rw [ht]; exact cos_arctan_pos _
  rw [← ht] at hb
  have hs : sin (2 * t) = 2 * rz / (r2 - z2) * cos (2 * t) := by rw [← htan, tan_mul_cos hc.ne']
  have c2 : cos t ^ 2 - sin t ^ 2 = cos (2 * t) := (cos_two_mul' t).symm
  have s2 : sin t * cos t = sin (2 * t) / 2 := by rw [sin_two_mul]; ring
  have key : (r2 - z2) * cos (2 * t) + 2 * rz * sin (2 * t) = cos (2 * t) * (((r2 - z2) ^ 2 + 4 * rz ^ 2) / (r2 - z2)) := by
    rw [hs]; field_simp; ring
  have q : 0 < (r2 - z2) ^ 2 + 4 * rz ^ 2 := by positivity
  refine ⟨by rw [abs_lt]; constructor <;> linarith [hb.1, hb.2], ?_, fun hlt => ?_, fun hlt => ?_⟩
  · rw [show -r2 * (cos t * sin t) + rz * (cos t ^ 2 - sin t ^ 2) + z2 * (sin t * cos t) = rz * (cos t ^ 2 - sin t ^ 2) - (r2 - z2) * (sin t * cos t) by ring, c2, s2, hs]
    field_simp
    ring
  · have : 0 < (r2 - z2) * cos (2 * t) + 2 * rz * sin (2 * t) := by
      rw [key]; exact mul_pos hc (div_pos q (sub_pos.2 hlt))
    rw [← c2, ← (show 2 * (sin t * cos t) = sin (2 * t) by rw [s2]; ring)] at this
    linarith
  · have : (r2 - z2) * cos (2 * t) + 2 * rz * sin (2 * t) < 0 := by
      rw [key]; exact mul_neg_of_pos_of_neg hc (div_neg_of_pos_of_neg q (sub_neg.2 hlt))
    rw [← c2, ← (show 2 * (sin t * cos t) = sin (2 * t) by rw [s2]; ring)] at this
    linarith

example : ∃ t, t = tiltOf 3 1 1 ∧ |t| < π / 4 := ⟨_, rfl, (C90_tilt 3 1 1 (by norm_num)).1⟩

/-! ### Marginal distributions -/

/-- The distributions of one velocity component converge to the integral of the distribution function over the other two. -/
theorem C90_pv {leg : ℕ → Rule} (hl : GaussLegendre leg) (o : Obj) (R z : ℝ) {ns T : ℝ} (hn : 0 < ns) (hT : 0 < T) (hs : 0 < o.p.sr) (hz : 0 < o.p.sz)
    (he : o.adiab = true → EvenV fun vR vT vz => o.f R vR vT z vz)
    (hf : Cont (fun vR vT vz => o.f R vR vT z vz) (ns * o.sigmaR1 R) T (ns * o.sigmaz1 R)) :
    (∀ vR, |vR| ≤ ns * o.sigmaR1 R → ∃ v : ℕ → ℝ, (∀ k, o.pvR leg vR R z (2 * k) ns T = .ok (v k)) ∧
      Tendsto v atTop (𝓝 (∫ vT in (0 : ℝ)..T, ∫ vz in (-(ns * o.sigmaz1 R))..(ns * o.sigmaz1 R), o.f R vR vT z vz))) ∧
    (∀ vT, 0 ≤ vT → vT ≤ T → ∃ v : ℕ → ℝ, (∀ k, o.pvT leg vT R z (2 * k) ns = .ok (v k)) ∧
      Tendsto v atTop (𝓝 (∫ vR in (-(ns * o.sigmaR1 R))..(ns * o.sigmaR1 R), ∫ vz in (-(ns * o.sigmaz1 R))..(ns * o.sigmaz1 R), o.f R vR vT z vz))) ∧
    (∀ vz, |vz| ≤ ns * o.sigmaz1 R → ∃ v : ℕ → ℝ, (∀ k, o.pvz leg vz R z (2 * k) ns T = .ok (v k)) ∧
      Tendsto v atTop (𝓝 (∫ vT in (0 : ℝ)..T, ∫ vR in (-(ns * o.sigmaR1 R))..(ns * o.sigmaR1 R), o.f R vR vT z vz))) := by
  have pa : 0 < ns * o.sigmaR1 R := mul_pos hn (sig_pos hs R)
  have pb : 0 < ns * o.sigmaz1 R := mul_pos hn (sigz_pos hz R)
  set a := ns * o.sigmaR1 R with ha
  set b := ns * o.sigmaz1 R with hb
  have mono : ∀ {h : ℝ}, 0 < h → Set.Icc (lo (!o.adiab) h) h ⊆ Set.Icc (-h) h := fun {h} hh => by
    refine Set.Icc_subset_Icc ?_ le_rfl
    cases o.adiab <;> simp [lo]; exact hh.le
  have g := C88aux.gauss hl
  have pT : ∀ k, pos leg (2 * k) T = axis true leg (2 * k) T := fun k => by simp [axis]
  refine ⟨fun vR hvR => ?_, fun vT h0 h1 => ?_, fun vz hvz => ?_⟩
  · have t := tendsto2 g false (!o.adiab) hT pb (G := fun vT vz => o.f R vR vT z vz)
      (hf.comp (by fun_prop : Continuous fun w : ℝ × ℝ => ((w.1, vR, w.2) : ℝ × ℝ × ℝ)).continuousOn
        fun w hw => ⟨by simpa [lo] using hw.1, abs_le.1 hvR, mono pb hw.2⟩)
    simp only [ax, Bool.not_not, Bool.not_false] at t
    rw [show lo false T = 0 by simp [lo]] at t
    have t2 := t.const_mul (if o.adiab then (2 : ℝ) else 1)
    rw [← intervalIntegral.integral_const_mul] at t2
    simp only [lo_int o.adiab (fun h x => (he h vR _ x).2) pb.le] at t2
    refine ⟨_, fun k => ?_, t2⟩
    rw [Obj.pvR, if_neg (by omega)]
    simp only [← hb, fac_eq, pT, List.sum_map_mul_right]
    congr 1
    ring
  · have t := tendsto2 g (!o.adiab) (!o.adiab) pa pb (G := fun vR vz => o.f R vR vT z vz)
      (hf.comp (by fun_prop : Continuous fun w : ℝ × ℝ => ((vT, w.1, w.2) : ℝ × ℝ × ℝ)).continuousOn
        fun w hw => ⟨⟨h0, h1⟩, mono pa hw.1, mono pb hw.2⟩)
    simp only [ax, Bool.not_not] at t
    have t2 := (t.const_mul (if o.adiab then (2 : ℝ) else 1)).const_mul (if o.adiab then (2 : ℝ) else 1)
    rw [lo_int o.adiab (fun h x => by simp only [(he h x vT _).1]) pa.le, ← intervalIntegral.integral_const_mul] at t2
    simp only [lo_int o.adiab (fun h x => (he h _ vT x).2) pb.le] at t2
    refine ⟨_, fun k => ?_, t2⟩
    rw [Obj.pvT, if_neg (by omega)]
    simp only [← hb, ← ha, fac_eq, List.sum_map_mul_right]
    congr 1
    ring
  · have t := tendsto2 g false (!o.adiab) hT pa (G := fun vT vR => o.f R vR vT z vz)
      (hf.comp (by fun_prop : Continuous fun w : ℝ × ℝ => ((w.1, w.2, vz) : ℝ × ℝ × ℝ)).continuousOn
        fun w hw => ⟨by simpa [lo] using hw.1, mono pa hw.2, abs_le.1 hvz⟩)
    simp only [ax, Bool.not_not, Bool.not_false] at t
    rw [show lo false T = 0 by simp [lo]] at t
    have t2 := t.const_mul (if o.adiab then (2 : ℝ) else 1)
    rw [← intervalIntegral.integral_const_mul] at t2
    have li : ∀ vT, _ := fun vT => lo_int o.adiab (g := fun vR => o.f R vR vT z vz) (fun h x => (he h x vT vz).1) pa.le
    simp only [li] at t2
    refine ⟨_, fun k => ?_, t2⟩
    rw [Obj.pvz, if_neg (by omega)]
    simp only [← ha, fac_eq, pT]
    congr 1
    ring

example : ∃ leg, GaussLegendre leg ∧ ∃ v : ℕ → ℝ, (∀ k, (flat true).pvR leg 0 1 0 (2 * k) 4 1 = .ok (v k)) ∧ ∃ x, Tendsto v atTop (𝓝 x) := by
  obtain ⟨leg, h⟩ := C88aux.exists_leg
  obtain ⟨v, h1, h2⟩ := (C90_pv h (flat true) 1 0 (ns := 4) (by norm_num) one_pos one_pos one_pos (fun _ _ _ _ => ⟨rfl, rfl⟩) (one_cont _ _ _)).1 0
    (by rw [(flat_s true).1]; norm_num)
  exact ⟨leg, h, v, h1, _, h2⟩

/-- The joint distributions of two velocity components converge to the integral over the third. -/
theorem C90_pvv {leg : ℕ → Rule} (hl : GaussLegendre leg) (o : Obj) (R z : ℝ) {ns T : ℝ} (hn : 0 < ns) (hT : 0 < T) (hs : 0 < o.p.sr) (hz : 0 < o.p.sz)
    (he : o.adiab = true → EvenV fun vR vT vz => o.f R vR vT z vz)
    (hf : Cont (fun vR vT vz => o.f R vR vT z vz) (ns * o.sigmaR1 R) T (ns * o.sigmaz1 R)) (vR vT vz : ℝ)
    (hR : |vR| ≤ ns * o.sigmaR1 R) (h0 : 0 ≤ vT) (h1 : vT ≤ T) (hvz : |vz| ≤ ns * o.sigmaz1 R) :
    (∃ v : ℕ → ℝ, (∀ k, o.pvRvT leg vR vT R z (2 * k) ns = .ok (v k)) ∧
      Tendsto v atTop (𝓝 (∫ u in (-(ns * o.sigmaz1 R))..(ns * o.sigmaz1 R), o.f R vR vT z u))) ∧
    (∃ v : ℕ → ℝ, (∀ k, o.pvTvz leg vT vz R z (2 * k) ns = .ok (v k)) ∧
      Tendsto v atTop (𝓝 (∫ u in (-(ns * o.sigmaR1 R))..(ns * o.sigmaR1 R), o.f R u vT z vz))) ∧
    (∃ v : ℕ → ℝ, (∀ k, o.pvRvz leg vR vz R z (2 * k) T = .ok (v k)) ∧ Tendsto v atTop (𝓝 (∫ u in (0 : ℝ)..T, o.f R vR u z vz))) := by
  have pa : 0 < ns * o.sigmaR1 R := mul_pos hn (sig_pos hs R)
  have pb : 0 < ns * o.sigmaz1 R := mul_pos hn (sigz_pos hz R)
  set a := ns * o.sigmaR1 R with ha
  set b := ns * o.sigmaz1 R with hb
  have mono : ∀ {h : ℝ}, 0 < h → Set.Icc (lo (!o.adiab) h) h ⊆ Set.Icc (-h) h := fun {h} hh => by
    refine Set.Icc_subset_Icc ?_ le_rfl
    cases o.adiab <;> simp [lo]; exact hh.le
  have g := C88aux.gauss hl
  have pT : ∀ k, pos leg (2 * k) T = axis true leg (2 * k) T := fun k => by simp [axis]
  refine ⟨?_, ?_, ?_⟩
  · have t := tendsto1 g (!o.adiab) pb (G := fun u => o.f R vR vT z u)
      (hf.comp (by fun_prop : Continuous fun w : ℝ => ((vT, vR, w) : ℝ × ℝ × ℝ)).continuousOn fun w hw => ⟨⟨h0, h1⟩, abs_le.1 hR, mono pb hw⟩)
    simp only [ax, Bool.not_not] at t
    have t2 := t.const_mul (if o.adiab then (2 : ℝ) else 1)
    rw [lo_int o.adiab (fun h x => (he h vR vT x).2) pb.le] at t2
    refine ⟨_, fun k => ?_, t2⟩
    rw [Obj.pvRvT, if_neg (by omega)]
    simp only [← hb, fac_eq, List.sum_map_mul_right]
    congr 1
    ring
  · have t := tendsto1 g (!o.adiab) pa (G := fun u => o.f R u vT z vz)
      (hf.comp (by fun_prop : Continuous fun w : ℝ => ((vT, w, vz) : ℝ × ℝ × ℝ)).continuousOn fun w hw => ⟨⟨h0, h1⟩, mono pa hw, abs_le.1 hvz⟩)
    simp only [ax, Bool.not_not] at t
    have t2 := t.const_mul (if o.adiab then (2 : ℝ) else 1)
    rw [lo_int o.adiab (fun h x => (he h x vT vz).1) pa.le] at t2
    refine ⟨_, fun k => ?_, t2⟩
    rw [Obj.pvTvz, if_neg (by omega)]
    simp only [← ha, fac_eq, List.sum_map_mul_right]
    congr 1
    ring
  · have t := tendsto1 g false hT (G := fun u => o.f R vR u z vz)
      (hf.comp (by fun_prop : Continuous fun w : ℝ => ((w, vR, vz) : ℝ × ℝ × ℝ)).continuousOn
        fun w hw => ⟨by simpa [lo] using hw, abs_le.1 hR, abs_le.1 hvz⟩)
    simp only [ax, Bool.not_false] at t
    rw [show lo false T = 0 by simp [lo]] at t
    refine ⟨_, fun k => ?_, t⟩
    rw [Obj.pvRvz, if_neg (by omega)]
    simp only [pT, List.sum_map_mul_right]
    congr 1
    ring

example : ∃ leg, GaussLegendre leg ∧ ∃ v : ℕ → ℝ, (∀ k, (flat true).pvRvT leg 0 1 1 0 (2 * k) 4 = .ok (v k)) ∧ ∃ x, Tendsto v atTop (𝓝 x) := by
  obtain ⟨leg, h⟩ := C88aux.exists_leg
  obtain ⟨v, h1, h2⟩ := (C90_pvv h (flat true) 1 0 (ns := 4) (by norm_num) one_pos one_pos one_pos (fun _ _ _ _ => ⟨rfl, rfl⟩) (one_cont _ _ _) 0 1 0
    (by rw [(flat_s true).1]; norm_num) zero_le_one le_rfl (by rw [(flat_s true).2]; norm_num)).1
  exact ⟨leg, h, v, h1, _, h2⟩

end Verif
