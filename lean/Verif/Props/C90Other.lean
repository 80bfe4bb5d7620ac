import Verif.Props.C90Moments

set_option autoImplicit false

/-!
# C90: Monte Carlo and direct moments, vertically integrated density, scale lengths
-/

noncomputable section
namespace Verif
open Real Filter Topology MeasureTheory QuasiIso C90Spec C90aux
open SCF (Rule)
open C88Spec (GaussLegendre)

namespace C90aux

theorem gamma_pos : 0 < gamma := by unfold gamma; positivity

theorem gauss_all : ∫ x : ℝ, exp (-x ^ 2 / 2) = √(2 * π) := by
  have := integral_gaussian (1 / 2)
  rw [show (π / (1 / 2) : ℝ) = 2 * π by ring] at this
  rw [← this]
  congr 1
  funext x
  ring_nf

/-- Iterated integrals of a rescaled and shifted function. -/
theorem rescale (G : ℝ → ℝ → ℝ → ℝ) {a b c : ℝ} (ha : 0 < a) (hb : 0 < b) (hc : 0 < c) (s : ℝ) :
    ∫ x, ∫ y, ∫ z, G (x * a) ((y + s) * b) (z * c) = (a * b * c)⁻¹ * ∫ x, ∫ y, ∫ z, G x y z := by
  have i3 : ∀ x y, ∫ z, G x y (z * c) = c⁻¹ * ∫ z, G x y z := fun x y => by
    rw [Measure.integral_comp_mul_right (fun z => G x y z) c, abs_of_pos (inv_pos.2 hc), smul_eq_mul]
  have i2 : ∀ x, ∫ y, ∫ z, G x ((y + s) * b) z = b⁻¹ * ∫ y, ∫ z, G x y z := fun x => by
    rw [integral_add_right_eq_self (fun y => ∫ z, G x (y * b) z) s, Measure.integral_comp_mul_right (fun y => ∫ z, G x y z) b,
      abs_of_pos (inv_pos.2 hb), smul_eq_mul]
  have i1 : ∫ x, ∫ y, ∫ z, G (x * a) y z = a⁻¹ * ∫ x, ∫ y, ∫ z, G x y z := by
    rw [Measure.integral_comp_mul_right (fun x => ∫ y, ∫ z, G x y z) a, abs_of_pos (inv_pos.2 ha), smul_eq_mul]
  simp only [i3, integral_const_mul]
  simp only [i2, integral_const_mul]
  rw [i1]
  rw [mul_inv, mul_inv]
  ring

end C90aux

/-! ### Monte Carlo -/

/-- The Monte Carlo estimate is the mean of the estimates for the single draws. -/
theorem C90_mc_mean (o : Obj) (R z : ℝ) (n m l : ℕ) (normal : List (ℝ × ℝ × ℝ)) (h : normal ≠ []) :
    o.momentMC R z n m l normal = (normal.map fun v => o.momentMC R z n m l [v]).sum / normal.length := by
  have hl : (normal.length : ℝ) ≠ 0 := by simpa using h
  by_cases c : o.adiab = true ∧ (n % 2 = 1 ∨ l % 2 = 1)
  · simp [Obj.momentMC, if_pos c]
  · simp only [Obj.momentMC, if_neg c, List.map_cons, List.map_nil, List.sum_cons, List.sum_nil, List.length_cons, List.length_nil, List.length_map, add_zero, zero_add,
      Nat.cast_one, div_one, List.sum_map_mul_right]
    ring

example : (flat false).momentMC 1 0 0 0 0 [(0, 0, 0), (1, 0, 0)]
    = (([(0, 0, 0), (1, 0, 0)] : List (ℝ × ℝ × ℝ)).map fun v => (flat false).momentMC 1 0 0 0 0 [v]).sum / ([(0, 0, 0), (1, 0, 0)] : List (ℝ × ℝ × ℝ)).length :=
  C90_mc_mean _ _ _ _ _ _ _ (by simp)

/-- The expectation over the normal random numbers is the moment over all velocities divided by `(2 π)^(3/2)`: missing is this factor,
which cancels in mean velocities and dispersions. -/
theorem C90_mc_partial (o : Obj) (R z : ℝ) (n m l : ℕ) (hs : 0 < o.p.sr) (hz : 0 < o.p.sz) (hp : o.adiab = true → n % 2 = 0 ∧ l % 2 = 0) :
    expect (fun v => o.momentMC R z n m l [v]) = momentAll (fun vR vT vz => o.f R vR vT z vz) n m l / √(2 * π) ^ 3 := by
  have c : ¬(o.adiab = true ∧ (n % 2 = 1 ∨ l % 2 = 1)) := by
    rintro ⟨h, h'⟩
    have := hp h
    omega
  have ps := sig_pos hs R
  have pz := sigz_pos hz R
  have pg := gamma_pos
  have pq : 0 < √(2 * π) := by positivity
  have key : ∀ x y w : ℝ, o.momentMC R z n m l [(x, y, w)] * (exp (-x ^ 2 / 2) / √(2 * π) * (exp (-y ^ 2 / 2) / √(2 * π)) * (exp (-w ^ 2 / 2) / √(2 * π)))
      = (o.sigmaR1 R * (o.sigmaR1 R * gamma) * o.sigmaz1 R / √(2 * π) ^ 3) *
        (fun vR vT vz => vR ^ n * vT ^ m * vz ^ l * o.f R vR vT z vz) (x * o.sigmaR1 R) ((y + o.mvT R) * (o.sigmaR1 R * gamma)) (w * o.sigmaz1 R) := fun x y w => by
    simp only [Obj.momentMC, if_neg c, List.map_cons, List.map_nil, List.sum_cons, List.sum_nil, List.length_cons, List.length_nil, add_zero, zero_add, Nat.cast_one,
      div_one, Obj.mcIntegrand, add_sub_cancel_right]
    have ex : exp (x ^ 2 / 2 + y ^ 2 / 2 + w ^ 2 / 2) * (exp (-x ^ 2 / 2) * exp (-y ^ 2 / 2) * exp (-w ^ 2 / 2)) = 1 := by
      rw [← exp_add, ← exp_add, ← exp_add, show x ^ 2 / 2 + y ^ 2 / 2 + w ^ 2 / 2 + (-x ^ 2 / 2 + -y ^ 2 / 2 + -w ^ 2 / 2) = 0 by ring, exp_zero]
    rw [show (y + o.mvT R) * o.sigmaR1 R * gamma = (y + o.mvT R) * (o.sigmaR1 R * gamma) by ring]
    generalize exp (x ^ 2 / 2 + y ^ 2 / 2 + w ^ 2 / 2) = E0 at *
    generalize exp (-x ^ 2 / 2) = E1 at *
    generalize exp (-y ^ 2 / 2) = E2 at *
    generalize exp (-w ^ 2 / 2) = E3 at *
    generalize o.f R (x * o.sigmaR1 R) ((y + o.mvT R) * (o.sigmaR1 R * gamma)) z (w * o.sigmaz1 R) = F
    simp only [mul_pow, pow_add]
    rw [show x ^ n * (y + o.mvT R) ^ m * w ^ l * F * E0 * (o.sigmaR1 R ^ 2 * o.sigmaR1 R ^ n * o.sigmaR1 R ^ m) * (gamma ^ 1 * gamma ^ m) *
        (o.sigmaz1 R ^ 1 * o.sigmaz1 R ^ l) * (E1 / √(2 * π) * (E2 / √(2 * π)) * (E3 / √(2 * π)))
      = (E0 * (E1 * E2 * E3)) * (x ^ n * (y + o.mvT R) ^ m * w ^ l * F * (o.sigmaR1 R ^ 2 * o.sigmaR1 R ^ n * o.sigmaR1 R ^ m) * (gamma ^ 1 * gamma ^ m) *
        (o.sigmaz1 R ^ 1 * o.sigmaz1 R ^ l)) / √(2 * π) ^ 3 by field_simp, ex]
    ring
  unfold expect
  simp only [key, integral_const_mul]
  have rs := rescale (fun vR vT vz => vR ^ n * vT ^ m * vz ^ l * o.f R vR vT z vz) ps (mul_pos ps pg) pz (o.mvT R)
  rw [rs]
  unfold momentAll
  have : o.sigmaR1 R * (o.sigmaR1 R * gamma) * o.sigmaz1 R ≠ 0 := by positivity
  field_simp

example : expect (fun v => (flat true).momentMC 1 0 2 1 0 [v]) = momentAll (fun vR vT vz => (flat true).f 1 vR vT 0 vz) 2 1 0 / √(2 * π) ^ 3 :=
  C90_mc_partial _ _ _ _ _ _ one_pos one_pos (by simp)

/-- Mean velocities by Monte Carlo: the ratio of the expectations is the ratio of the moments. -/
theorem C90_mc_ratio (o : Obj) (R z : ℝ) (n m l : ℕ) (hs : 0 < o.p.sr) (hz : 0 < o.p.sz) (hp : o.adiab = true → n % 2 = 0 ∧ l % 2 = 0) :
    expect (fun v => o.momentMC R z n m l [v]) / expect (fun v => o.momentMC R z 0 0 0 [v])
      = momentAll (fun vR vT vz => o.f R vR vT z vz) n m l / momentAll (fun vR vT vz => o.f R vR vT z vz) 0 0 0 := by
  rw [C90_mc_partial o R z n m l hs hz hp, C90_mc_partial o R z 0 0 0 hs hz (by simp), div_div_div_cancel_right₀ (by positivity)]

example : expect (fun v => (flat true).momentMC 1 0 2 1 0 [v]) / expect (fun v => (flat true).momentMC 1 0 0 0 0 [v])
    = momentAll (fun vR vT vz => (flat true).f 1 vR vT 0 vz) 2 1 0 / momentAll (fun vR vT vz => (flat true).f 1 vR vT 0 vz) 0 0 0 :=
  C90_mc_ratio _ _ _ _ _ _ one_pos one_pos (by simp)

/-- The Monte Carlo estimate of the density has not the density as expectation: for a Maxwellian it is smaller by `(2 π)^(3/2)`. -/
theorem C90_mc_fails : ∃ (o : Obj) (R z : ℝ), momentAll (fun vR vT vz => o.f R vR vT z vz) 0 0 0 = √(2 * π) ^ 3 ∧
    expect (fun v => o.momentMC R z 0 0 0 [v]) = 1 ∧ √(2 * π) ^ 3 ≠ 1 := by
  refine ⟨⟨⟨1, 1, 1, 1, 1, 1, 1, true⟩, fun _ => 1, false, fun _ vR vT _ vz => exp (-vR ^ 2 / 2) * exp (-vT ^ 2 / 2) * exp (-vz ^ 2 / 2)⟩, 1, 0, ?_⟩
  have m : momentAll (fun vR vT vz => exp (-vR ^ 2 / 2) * exp (-vT ^ 2 / 2) * exp (-vz ^ 2 / 2)) 0 0 0 = √(2 * π) ^ 3 := by
    unfold momentAll
    simp only [pow_zero, one_mul, integral_const_mul, gauss_all, integral_mul_const]
    ring
  refine ⟨m, ?_, ?_⟩
  · rw [C90_mc_partial _ _ _ _ _ _ one_pos one_pos (by simp)]
    show momentAll (fun vR vT vz => exp (-vR ^ 2 / 2) * exp (-vT ^ 2 / 2) * exp (-vz ^ 2 / 2)) 0 0 0 / _ = 1
    rw [m]
    exact div_self (by positivity)
  · have : 1 < √(2 * π) := by
      rw [lt_sqrt zero_le_one]
      linarith [two_le_pi]
    exact (one_lt_pow₀ this (by norm_num)).ne'

/-! ### Direct integration -/

/-- The moments by direct integration are the integral over a quarter of the range, with radial and vertical velocities positive, and
tangential velocities around the circular velocity less the asymmetric drift: missing are the three other quarters. -/
theorem C90_direct_partial (o : Obj) (R z : ℝ) (n m l : ℕ) (ns : Option ℝ) (hs : 0 < o.p.sr) (hz : 0 < o.p.sz) (hp : o.adiab = true → n % 2 = 0 ∧ l % 2 = 0) :
    o.momentDirect R z n m l ns = ∫ vT in (o.vcirc R - o.va R - ns.getD 4 * (o.sigmaR1 R * gamma))..(o.vcirc R - o.va R + ns.getD 4 * (o.sigmaR1 R * gamma)),
      ∫ vR in (0 : ℝ)..(ns.getD 4 * o.sigmaR1 R), ∫ vz in (0 : ℝ)..(ns.getD 4 * o.sigmaz1 R), vR ^ n * vT ^ m * vz ^ l * o.f R vR vT z vz := by
  have c : ¬(o.adiab = true ∧ (n % 2 = 1 ∨ l % 2 = 1)) := by
    rintro ⟨h, h'⟩
    have := hp h
    omega
  have ps := sig_pos hs R
  have pz := sigz_pos hz R
  have pg := gamma_pos
  simp only [Obj.momentDirect, if_neg c]
  generalize o.sigmaR1 R = s at *
  generalize o.sigmaz1 R = t at *
  generalize ns.getD 4 = k at *
  generalize o.vcirc R - o.va R = V at *
  have pb : 0 < s * gamma := mul_pos ps pg
  have i3 : ∀ x y : ℝ, ∫ w in (0 : ℝ)..k, (x * s) ^ n * (y * (s * gamma)) ^ m * (w * t) ^ l * o.f R (x * s) (y * (s * gamma)) z (w * t)
      = t⁻¹ * ∫ w in (0 : ℝ)..(k * t), (x * s) ^ n * (y * (s * gamma)) ^ m * w ^ l * o.f R (x * s) (y * (s * gamma)) z w := fun x y => by
    have := intervalIntegral.integral_comp_mul_right (a := 0) (b := k) (fun w => (x * s) ^ n * (y * (s * gamma)) ^ m * w ^ l * o.f R (x * s) (y * (s * gamma)) z w) pz.ne'
    rw [zero_mul, smul_eq_mul] at this
    exact this
  have i2 : ∀ y : ℝ, ∫ x in (0 : ℝ)..k, ∫ w in (0 : ℝ)..(k * t), (x * s) ^ n * (y * (s * gamma)) ^ m * w ^ l * o.f R (x * s) (y * (s * gamma)) z w
      = s⁻¹ * ∫ x in (0 : ℝ)..(k * s), ∫ w in (0 : ℝ)..(k * t), x ^ n * (y * (s * gamma)) ^ m * w ^ l * o.f R x (y * (s * gamma)) z w := fun y => by
    have := intervalIntegral.integral_comp_mul_right (a := 0) (b := k)
      (fun x => ∫ w in (0 : ℝ)..(k * t), x ^ n * (y * (s * gamma)) ^ m * w ^ l * o.f R x (y * (s * gamma)) z w) ps.ne'
    rw [zero_mul, smul_eq_mul] at this
    exact this
  have i1 : ∫ y in (1 / gamma * V / s - k)..(1 / gamma * V / s + k), ∫ x in (0 : ℝ)..(k * s), ∫ w in (0 : ℝ)..(k * t),
        x ^ n * (y * (s * gamma)) ^ m * w ^ l * o.f R x (y * (s * gamma)) z w
      = (s * gamma)⁻¹ * ∫ y in (V - k * (s * gamma))..(V + k * (s * gamma)), ∫ x in (0 : ℝ)..(k * s), ∫ w in (0 : ℝ)..(k * t), x ^ n * y ^ m * w ^ l * o.f R x y z w := by
    have := intervalIntegral.integral_comp_mul_right (a := 1 / gamma * V / s - k) (b := 1 / gamma * V / s + k)
      (fun y => ∫ x in (0 : ℝ)..(k * s), ∫ w in (0 : ℝ)..(k * t), x ^ n * y ^ m * w ^ l * o.f R x y z w) pb.ne'
    rw [smul_eq_mul, show (1 / gamma * V / s - k) * (s * gamma) = V - k * (s * gamma) by field_simp,
      show (1 / gamma * V / s + k) * (s * gamma) = V + k * (s * gamma) by field_simp] at this
    exact this
  have e : ∀ y x w : ℝ, x ^ n * y ^ m * w ^ l * o.f R (x * s) (y * s * gamma) z (w * t)
      = (s ^ n * (s * gamma) ^ m * t ^ l)⁻¹ * ((x * s) ^ n * (y * (s * gamma)) ^ m * (w * t) ^ l * o.f R (x * s) (y * (s * gamma)) z (w * t)) := fun y x w => by
    rw [← mul_assoc y s gamma]
    simp only [mul_pow]
    field_simp
  simp only [e, intervalIntegral.integral_const_mul, i3, i2, i1]
  simp only [mul_pow, pow_add]
  field_simp

example : (flat false).momentDirect 1 0 1 2 1 (some 3) = ∫ vT in ((flat false).vcirc 1 - (flat false).va 1 - 3 * ((flat false).sigmaR1 1 * gamma))..((flat false).vcirc 1 -
      (flat false).va 1 + 3 * ((flat false).sigmaR1 1 * gamma)), ∫ vR in (0 : ℝ)..(3 * (flat false).sigmaR1 1), ∫ vz in (0 : ℝ)..(3 * (flat false).sigmaz1 1),
        vR ^ 1 * vT ^ 2 * vz ^ 1 * (flat false).f 1 vR vT 0 vz :=
  C90_direct_partial _ _ _ _ _ _ _ one_pos one_pos (by simp [flat])

/-- Direct integration gives, for a distribution even in the radial velocity, a non-zero mean radial velocity, and the dispersion of the
tangential velocity comes out negative. -/
theorem C90_direct_fails : ∃ (o : Obj) (R z : ℝ), (EvenV fun vR vT vz => o.f R vR vT z vz) ∧ 0 < o.momentDirect R z 0 0 0 none ∧
    0 < o.momentDirect R z 1 0 0 none / o.momentDirect R z 0 0 0 none ∧ o.sigmaT2Direct R z none < 0 := by
  let o : Obj := ⟨⟨1 / 10, 1, 1, 1 / 10, 1, 1, 1, true⟩, fun _ => 1, false, fun _ _ _ _ _ => 1⟩
  have g2 : gamma ^ 2 = 1 / 2 := by unfold gamma; rw [sq_sqrt (by norm_num)]; norm_num
  have pg := gamma_pos
  have s1 : o.sigmaR1 1 = 1 := by simp [o, Obj.sigmaR1]
  have s2 : o.sigmaz1 1 = 1 := by simp [o, Obj.sigmaz1]
  have va : o.va 1 = 0 := by
    simp only [Obj.va, s1, g2]
    rw [if_pos]
    simp only [o]
    norm_num
  have D : ∀ n m, o.momentDirect 1 0 n m 0 none = ∫ vT in (1 - 4 * gamma)..(1 + 4 * gamma), ∫ vR in (0 : ℝ)..4, ∫ vz in (0 : ℝ)..4, vR ^ n * vT ^ m * vz ^ 0 * 1 := fun n m => by
    rw [C90_direct_partial o 1 0 n m 0 none one_pos one_pos (by simp [o]), s1, s2, va]
    simp [o]
  have d0 : o.momentDirect 1 0 0 0 0 none = 128 * gamma := by rw [D]; simp; ring
  have d1 : o.momentDirect 1 0 1 0 0 none = 256 * gamma := by
    rw [D]
    have : ∫ vR in (0 : ℝ)..4, vR * 4 = 32 := by rw [intervalIntegral.integral_mul_const, integral_id]; norm_num
    simp [mul_comm _ (4 : ℝ)] at this ⊢
    rw [this]; ring
  have d2 : o.momentDirect 1 0 0 2 0 none = 128 * gamma * (11 / 3) := by
    rw [D]; simp
    rw [show (1 + 4 * gamma) ^ 3 - (1 - 4 * gamma) ^ 3 = gamma * (24 + 128 * gamma ^ 2) by ring, g2]
    ring
  refine ⟨o, 1, 0, fun _ _ _ => ⟨rfl, rfl⟩, by rw [d0]; positivity, by rw [d0, d1]; positivity, ?_⟩
  simp only [Obj.sigmaT2Direct, d0, d2]
  rw [mul_div_cancel_left₀ _ (by positivity)]
  norm_num

/-! ### Vertically integrated density -/

/-- With Gauss-Legendre integration the vertically integrated density converges, as its order grows, to the integral over heights less
than a half: missing is the largest height given, which has no effect. -/
theorem C90_surfacemass_partial {leg : ℕ → Rule} (hl : GaussLegendre leg) (density : ℝ → ℝ → ℝ) (R : ℝ) (nz : ℕ) (zmax : ℝ)
    (hc : ContinuousOn (density R) (Set.Icc 0 (1 / 2))) :
    Tendsto (fun k => surfacemassFixed leg density R nz zmax (2 * k)) atTop (𝓝 (2 * ∫ z in (0 : ℝ)..(1 / 2), density R z)) := by
  have t := (tendsto1 (C88aux.gauss hl) false (h := 1 / 2) (by norm_num) (G := density R) (by simpa [lo] using hc)).const_mul 2
  rw [show lo false (1 / 2) = 0 by simp [lo]] at t
  refine t.congr fun k => ?_
  simp only [surfacemassFixed, ax, Bool.not_false, axis, if_true, pos, List.map_map]
  rw [show ∀ S : ℝ, 2 * (S * (1 / 2 / 2)) = 2 * S * ((0.5 - 0) / 2) from fun S => by norm_num; ring]
  congr 2
  refine congrArg _ (List.map_congr_left fun q _ => ?_)
  simp only [Function.comp]
  rw [mul_comm, show 1 / 2 / 2 * (q.1 + 1) = (0.5 - 0) * (q.1 + 1) / 2 + 0 by norm_num; ring]

example : ∃ leg, GaussLegendre leg ∧ Tendsto (fun k => surfacemassFixed leg (fun _ z => exp (-z)) 1 7 1 (2 * k)) atTop (𝓝 (2 * ∫ z in (0 : ℝ)..(1 / 2), exp (-z))) := by
  obtain ⟨leg, h⟩ := C88aux.exists_leg
  exact ⟨leg, h, C90_surfacemass_partial h (fun _ z => exp (-z)) 1 7 1 (by fun_prop)⟩

/-- The largest height is ignored: for a constant density the result with `zmax=1` is half of the integral up to that height, and the
two ways of integrating differ by a factor of two. -/
theorem C90_surfacemass_fails : ∃ (leg : ℕ → Rule) (density : ℝ → ℝ → ℝ) (lsf : List ℝ → List ℝ → ℝ → ℝ), GaussLegendre leg ∧
    (∀ zs z, lsf zs (zs.map fun z => log (density 1 z)) z = log (density 1 z)) ∧
    (∀ k, 0 < k → surfacemassFixed leg density 1 7 1 k = 1) ∧ surfacemassSpline lsf density 1 7 1 = 2 ∧ 2 * ∫ z in (0 : ℝ)..1, density 1 z = 2 := by
  obtain ⟨leg, h⟩ := C88aux.exists_leg
  refine ⟨leg, fun _ _ => 1, fun _ _ _ => 0, h, fun _ _ => by simp, fun k hk => ?_, by simp [surfacemassSpline], by simp⟩
  simp only [surfacemassFixed, nodes, List.map_map, mul_one]
  rw [show ((fun q : ℝ × ℝ => q.2) ∘ fun i => ((leg k).x i, (leg k).w i)) = (leg k).w from rfl, sum_range, QuadConv.wsum (C88aux.gauss h k) hk]
  norm_num

/-! ### Scale lengths -/

/-- The scale lengths estimated from differences are exact for exponential profiles. -/
theorem C90_scale {c h : ℝ} (hc : 0 < c) (hh : h ≠ 0) (R z : ℝ) {d : ℝ} (hd : d ≠ 0) :
    estimateR (fun x => c * exp (-x / h)) R d false = h ∧ estimateR (fun x => (c * exp (-x / h)) ^ 2) R d true = h ∧
    estimateZ (fun x => c * exp (-x / h)) z d = h := by
  have l : ∀ x, log (c * exp (-x / h)) = log c - x / h := fun x => by rw [log_mul hc.ne' (exp_pos _).ne', log_exp]; ring
  refine ⟨?_, ?_, ?_⟩
  · simp only [estimateR, Bool.false_eq_true, if_false, l]
    rw [show log c - (R + d / 2) / h - (log c - (R - d / 2) / h) = -d / h by ring]
    field_simp
  · simp only [estimateR, if_true, log_pow, l]
    rw [show ((2 : ℕ) : ℝ) * (log c - (R + d / 2) / h) / 2 - ((2 : ℕ) : ℝ) * (log c - (R - d / 2) / h) / 2 = -d / h by push_cast; ring]
    field_simp
  · simp only [estimateZ, l]
    split_ifs
    · rw [show log c - (z + d) / h - (log c - z / h) = -d / h by ring]
      field_simp
    · rw [show log c - (z + d / 2) / h - (log c - (z - d / 2) / h) = -d / h by ring]
      field_simp

example : estimateR (fun x => 3 * exp (-x / 2)) 1 (1 / 10) false = 2 := (C90_scale (by norm_num) (by norm_num) 1 0 (by norm_num)).1

end Verif
