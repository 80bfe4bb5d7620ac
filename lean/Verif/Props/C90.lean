import Verif.Lemmas.DF.QuasiIsoMoments
import Verif.Props.C88

set_option autoImplicit false

/-!
# C90: the quasi-isothermal distribution function and its velocity moments
-/

noncomputable section
namespace Verif
open Real Filter Topology MeasureTheory QuasiIso
open SCF (Rule)
open C88Spec (GaussLegendre)

namespace C90Spec

/-- The moment of order `n, m, l` in `vR, vT, vz` of a velocity distribution over `|vR| ≤ a`, `0 ≤ vT ≤ T`, `|vz| ≤ b`. -/
def moment (f : ℝ → ℝ → ℝ → ℝ) (a T b : ℝ) (n m l : ℕ) : ℝ :=
  ∫ vT in (0 : ℝ)..T, ∫ vR in (-a)..a, ∫ vz in (-b)..b, vR ^ n * vT ^ m * vz ^ l * f vR vT vz

/-- The velocity distribution is continuous there. -/
def Cont (f : ℝ → ℝ → ℝ → ℝ) (a T b : ℝ) : Prop :=
  ContinuousOn (fun w : ℝ × ℝ × ℝ => f w.2.1 w.1 w.2.2) (Set.Icc 0 T ×ˢ Set.Icc (-a) a ×ˢ Set.Icc (-b) b)

/-- It does not depend on the signs of the radial and vertical velocities, as is the case for adiabatic actions. -/
def EvenV (f : ℝ → ℝ → ℝ → ℝ) : Prop := ∀ vR vT vz, f (-vR) vT vz = f vR vT vz ∧ f vR vT (-vz) = f vR vT vz

/-- Moments over all velocities. -/
def momentAll (f : ℝ → ℝ → ℝ → ℝ) (n m l : ℕ) : ℝ := ∫ vR, ∫ vT, ∫ vz, vR ^ n * vT ^ m * vz ^ l * f vR vT vz

/-- The mean of a function of three independent normal variables. -/
def expect (F : ℝ × ℝ × ℝ → ℝ) : ℝ := ∫ x, ∫ y, ∫ z, F (x, y, z) * (exp (-x ^ 2 / 2) / √(2 * π) * (exp (-y ^ 2 / 2) / √(2 * π)) * (exp (-z ^ 2 / 2) / √(2 * π)))

/-- The quasi-isothermal distribution function of Binney (2010), Binney & McMillan (2011) with exponential profiles. -/
def quasi (p : Par) (rc kappa nu Omega jr lz jz : ℝ) : ℝ :=
  let Sigma := exp ((p.refr - rc) / p.hr);
  let sr := p.sr * exp ((p.refr - rc) / p.hsr);
  let sz := p.sz * exp ((p.refr - rc) / p.hsz);
  Omega * Sigma / (π * sr ^ 2 * kappa) * (1 + tanh (lz / p.lo)) * exp (-kappa * jr / sr ^ 2) * (nu / (2 * π * sz ^ 2) * exp (-nu * jz / sz ^ 2))

end C90Spec

open C90Spec

namespace C90aux

theorem exp2 {s : ℝ} (hs : 0 < s) (x : ℝ) : exp (-2 * (log s + x)) = 1 / (s * exp x) ^ 2 := by
  rw [show -2 * (log s + x) = -(log s + x) + -(log s + x) by ring, exp_add, exp_neg, exp_add, exp_log hs, sq, one_div]; simp only [mul_inv]

theorem lin_eq {p : Par} (hr : 0 < p.sr) (hz : 0 < p.sz) (func : Option (ℝ → ℝ → ℝ → ℝ)) (jr lz jz rg kappa nu Omega : ℝ) :
    linAt p func jr lz jz rg kappa nu Omega = quasi p rg kappa nu Omega jr lz jz * (match func with | some g => g jr lz jz | none => 1) := by
  unfold linAt quasi
  simp only [exp2 hr, exp2 hz]
  congr 1
  rw [show -kappa * jr * (1 / (p.sr * exp ((p.refr - rg) / p.hsr)) ^ 2) = -kappa * jr / (p.sr * exp ((p.refr - rg) / p.hsr)) ^ 2 by ring,
    show -nu * jz * (1 / (p.sz * exp ((p.refr - rg) / p.hsz)) ^ 2) = -nu * jz / (p.sz * exp ((p.refr - rg) / p.hsz)) ^ 2 by ring]
  have s1 : (p.sr * exp ((p.refr - rg) / p.hsr)) ^ 2 ≠ 0 := by positivity
  have s2 : (p.sz * exp ((p.refr - rg) / p.hsz)) ^ 2 ≠ 0 := by positivity
  generalize (p.sr * exp ((p.refr - rg) / p.hsr)) ^ 2 = a at *
  generalize (p.sz * exp ((p.refr - rg) / p.hsz)) ^ 2 = b at *
  have : 1 / a / π / kappa = 1 / (π * a * kappa) := by rw [div_div, div_div]; congr 1; ring
  rw [show Omega * exp ((p.refr - rg) / p.hr) * (1 / a) / π / kappa = Omega * exp ((p.refr - rg) / p.hr) * (1 / a / π / kappa) by ring, this]
  have : 1 / 2 / π * (1 / b) = 1 / (2 * π * b) := by rw [div_div, div_mul_div_comm, one_mul]
  rw [show nu / 2 / π * (1 / b) = nu * (1 / 2 / π * (1 / b)) by ring, this]
  ring

theorem tanh_pos (x : ℝ) : 0 < 1 + tanh x := by
  rw [tanh_eq_sinh_div_cosh, show 1 + sinh x / cosh x = exp x / cosh x by rw [← cosh_add_sinh, add_div, div_self (cosh_pos x).ne']]
  exact div_pos (exp_pos _) (cosh_pos x)

theorem exp_int {c : ℝ} (hc : 0 < c) : ∫ x in Set.Ioi (0 : ℝ), exp (-(c * x)) = 1 / c := by
  have := integral_exp_mul_Ioi (show -c < 0 by linarith) 0
  simp only [mul_zero, exp_zero] at this
  rw [show (fun x : ℝ => exp (-(c * x))) = fun x => exp (-c * x) by funext x; ring_nf, this]
  field_simp

end C90aux

open C90aux

/-! ### The distribution function -/

/-- The value is Binney's quasi-isothermal distribution function with exponential profiles, times the function passed. -/
theorem C90_call {p : Par} (hr : 0 < p.sr) (hz : 0 < p.sz) (e : Env) (func : Option (ℝ → ℝ → ℝ → ℝ)) (jr lz jz : ℝ) :
    (p.cutcounter = true ∧ lz < 0 → call p e func (some (jr, lz, jz)) = 0) ∧
    (¬(p.cutcounter = true ∧ lz < 0) → ∃ rc, rc = rgScalar e lz ∧ call p e func (some (jr, lz, jz))
      = quasi p rc (e.epifreq rc) (e.verticalfreq rc) (|lz| / rc ^ 2) jr lz jz * (match func with | some g => g jr lz jz | none => 1)) ∧
    call p e func none = 0 := by
  refine ⟨fun h => by simp only [call, if_pos h], fun h => ⟨_, rfl, ?_⟩, rfl⟩
  simp only [call, if_neg h]
  rw [lin_eq hr hz, div_div, sq]

example : ∃ (p : Par) (e : Env), 0 < p.sr ∧ 0 < p.sz ∧ call p e (some fun jr _ _ => jr) (some (1, 1, 1)) ≠ 0 := by
  refine ⟨⟨1, 1, 1, 1, 1, 1, 1, true⟩, ⟨fun _ => 1, fun _ => 1, fun _ => 1, fun _ => 1, fun _ => 1, 2, 0⟩, by norm_num, by norm_num, ?_⟩
  have h := (C90_call (p := ⟨1, 1, 1, 1, 1, 1, 1, true⟩) one_pos one_pos ⟨fun _ => 1, fun _ => 1, fun _ => 1, fun _ => 1, fun _ => 1, 2, 0⟩
    (some fun jr _ _ => jr) 1 1 1).2.1 (by norm_num)
  obtain ⟨rc, hrc, h⟩ := h
  rw [h]
  have : rc = 1 := by rw [hrc]; simp [rgScalar]
  subst this
  have := tanh_pos ((1 : ℝ) / 1)
  simp only [quasi]
  have : 0 < |(1 : ℝ)| / 1 ^ 2 := by norm_num
  positivity

/-- `log=True` returns the logarithm of the value; where it returns minus the largest number the value is zero. -/
theorem C90_log {p : Par} (hr : 0 < p.sr) (hz : 0 < p.sz) (e : Env) (func : Option (ℝ → ℝ → ℝ → ℝ)) (j : Option (ℝ × ℝ × ℝ)) :
    (callLog p e func j = none → call p e func j = 0) ∧
    ∀ l, callLog p e func j = some l → (∀ jr lz jz, j = some (jr, lz, jz) → lz ≠ 0 ∧ 0 < rgScalar e lz ∧ 0 < e.epifreq (rgScalar e lz) ∧
      0 < e.verticalfreq (rgScalar e lz) ∧ ∀ g, func = some g → 0 < g jr lz jz) → exp l = call p e func j := by
  rcases j with _ | ⟨jr, lz, jz⟩
  · exact ⟨fun _ => rfl, fun l h => by simp [callLog] at h⟩
  by_cases c : p.cutcounter = true ∧ lz < 0
  · exact ⟨fun _ => by simp only [call, if_pos c], fun l h => absurd h (by simp [callLog, if_pos c])⟩
  refine ⟨fun h => absurd h (by simp [callLog, if_neg c]), fun l h hj => ?_⟩
  obtain ⟨h0, h1, h2, h3, h4⟩ := hj jr lz jz rfl
  simp only [callLog, if_neg c, Option.some.injEq] at h
  simp only [call, if_neg c, ← h]
  have hO : 0 < |lz| / rgScalar e lz / rgScalar e lz := by have := abs_pos.2 h0; positivity
  generalize |lz| / rgScalar e lz / rgScalar e lz = O at *
  generalize e.epifreq (rgScalar e lz) = ka at *
  generalize e.verticalfreq (rgScalar e lz) = nu at *
  generalize rgScalar e lz = rg at *
  have t := tanh_pos (lz / p.lo)
  simp only [logAt, linAt]
  rw [exp_add]
  congr 1
  swap
  · rcases func with _ | g
    · exact exp_zero
    · exact exp_log (h4 g rfl)
  rw [exp_add]
  have ka0 := h2.ne'
  have nu0 := h3.ne'
  congr 1
  · rw [show log O + (p.refr - rg) / p.hr - 2 * (log p.sr + (p.refr - rg) / p.hsr) - log π - log ka + log (1 + tanh (lz / p.lo)) -
        ka * jr * exp (-2 * (log p.sr + (p.refr - rg) / p.hsr))
      = log O + (p.refr - rg) / p.hr + (-2 * (log p.sr + (p.refr - rg) / p.hsr)) + -log π + -log ka + log (1 + tanh (lz / p.lo)) +
        -ka * jr * exp (-2 * (log p.sr + (p.refr - rg) / p.hsr)) by ring]
    simp only [exp_add, exp_neg, exp_log hO, exp_log h2, exp_log pi_pos, exp_log t]
    ring
  · rw [show log nu - log (2 * π) - 2 * (log p.sz + (p.refr - rg) / p.hsz) - nu * jz * exp (-2 * (log p.sz + (p.refr - rg) / p.hsz))
      = log nu + -log (2 * π) + (-2 * (log p.sz + (p.refr - rg) / p.hsz)) + -nu * jz * exp (-2 * (log p.sz + (p.refr - rg) / p.hsz)) by ring]
    simp only [exp_add, exp_neg, exp_log h3, exp_log (show 0 < 2 * π by positivity)]
    rw [mul_inv]
    ring

example : ∃ (p : Par) (e : Env) (l : ℝ), 0 < p.sr ∧ 0 < p.sz ∧ callLog p e none (some (1, 1, 1)) = some l ∧ 0 < rgScalar e 1 ∧ 0 < e.epifreq 1 := by
  refine ⟨⟨1, 1, 1, 1, 1, 1, 1, true⟩, ⟨fun _ => 1, fun _ => 1, fun _ => 1, fun _ => 1, fun _ => 1, 2, 0⟩, _, by norm_num, by norm_num,
    by simp only [callLog]; rw [if_neg (by norm_num)], by simp [rgScalar], by norm_num⟩

/-- Normalisation: integrated over radial and vertical action, and the angles, the distribution function gives the mass per angular
momentum of a disk with the surface density `exp ((refr - Rc) / hr)`, times `1 + tanh(lz / lo)`. -/
theorem C90_norm {p : Par} (hr : 0 < p.sr) (hz : 0 < p.sz) (e : Env) {lz dvc : ℝ} (hlz : 0 < lz) (hR : 0 < rgScalar e lz)
    (hcirc : rgScalar e lz * e.vcirc (rgScalar e lz) = lz) (hd : HasDerivAt e.vcirc dvc (rgScalar e lz))
    (hk : 0 < e.epifreq (rgScalar e lz)) (hn : 0 < e.verticalfreq (rgScalar e lz))
    (hk2 : e.epifreq (rgScalar e lz) ^ 2 = 2 * (e.vcirc (rgScalar e lz) / rgScalar e lz) * (e.vcirc (rgScalar e lz) / rgScalar e lz + dvc)) :
    ∃ dL, HasDerivAt (fun R => R * e.vcirc R) dL (rgScalar e lz) ∧
      (2 * π) ^ 3 * ∫ jr in Set.Ioi (0 : ℝ), ∫ jz in Set.Ioi (0 : ℝ), call p e none (some (jr, lz, jz))
        = 2 * π * rgScalar e lz * exp ((p.refr - rgScalar e lz) / p.hr) / dL * (1 + tanh (lz / p.lo)) := by
  refine ⟨1 * e.vcirc (rgScalar e lz) + rgScalar e lz * dvc, (hasDerivAt_id _).mul hd, ?_⟩
  have c : ¬(p.cutcounter = true ∧ lz < 0) := fun h => by linarith [h.2]
  have e0 : ∀ jr jz, call p e none (some (jr, lz, jz)) = linAt p none jr lz jz (rgScalar e lz) (e.epifreq (rgScalar e lz))
      (e.verticalfreq (rgScalar e lz)) (lz / rgScalar e lz / rgScalar e lz) := fun jr jz => by
    simp only [call, if_neg c, abs_of_pos hlz]
  simp only [e0, linAt]
  generalize e.verticalfreq (rgScalar e lz) = nu at *
  generalize e.epifreq (rgScalar e lz) = ka at *
  generalize e.vcirc (rgScalar e lz) = vc at *
  generalize rgScalar e lz = rc at *
  have q1 := exp_pos (-2 * (log p.sr + (p.refr - rc) / p.hsr))
  have q2 := exp_pos (-2 * (log p.sz + (p.refr - rc) / p.hsz))
  generalize exp (-2 * (log p.sr + (p.refr - rc) / p.hsr)) = A at *
  generalize exp (-2 * (log p.sz + (p.refr - rc) / p.hsz)) = B at *
  generalize exp ((p.refr - rc) / p.hr) = S at *
  generalize 1 + tanh (lz / p.lo) = t at *
  have i1 : ∀ jr : ℝ, ∫ jz in Set.Ioi (0 : ℝ), lz / rc / rc * S * A / π / ka * t * exp (-ka * jr * A) * (nu / 2 / π * B * exp (-nu * jz * B)) * 1
      = lz / rc / rc * S * A / π / ka * t * (nu / 2 / π * B) * (1 / (nu * B)) * exp (-((ka * A) * jr)) := fun jr => by
    rw [← exp_int (show 0 < nu * B by positivity), mul_assoc _ (∫ x in Set.Ioi (0 : ℝ), exp (-(nu * B * x))), mul_comm (∫ x in Set.Ioi (0 : ℝ), exp (-(nu * B * x))),
      ← mul_assoc, ← integral_const_mul]
    refine integral_congr_ae (Eventually.of_forall fun jz => ?_)
    simp only
    rw [show -ka * jr * A = -(ka * A * jr) by ring, show -nu * jz * B = -(nu * B * jz) by ring]
    ring
  simp only [i1]
  rw [integral_const_mul, exp_int (show 0 < ka * A by positivity)]
  have hv : 0 < vc := by
    rcases lt_trichotomy vc 0 with h | h | h
    · nlinarith [mul_neg_of_pos_of_neg hR h]
    · rw [h, mul_zero] at hcirc; linarith
    · exact h
  have hk3 : ka ^ 2 * rc ^ 2 = 2 * vc * (vc + rc * dvc) := by rw [hk2]; field_simp
  have hD : 0 < vc + rc * dvc := by
    have : 0 < ka ^ 2 * rc ^ 2 := by positivity
    rw [hk3] at this
    exact pos_of_mul_pos_right this (by positivity)
  have hD' : 1 * vc + rc * dvc = ka ^ 2 * rc ^ 2 / (2 * vc) := by rw [hk3]; field_simp
  rw [hD', ← hcirc]
  field_simp
  try ring

/-- A flat rotation curve: circular orbits at `Rc = lz`. -/
example : ∃ (p : Par) (e : Env), 0 < p.sr ∧ 0 < p.sz ∧ rgScalar e 2 * e.vcirc (rgScalar e 2) = 2 ∧ 0 < rgScalar e 2 ∧ HasDerivAt e.vcirc 0 (rgScalar e 2) ∧
    0 < e.epifreq (rgScalar e 2) ∧ e.epifreq (rgScalar e 2) ^ 2 = 2 * (e.vcirc (rgScalar e 2) / rgScalar e 2) * (e.vcirc (rgScalar e 2) / rgScalar e 2 + 0) := by
  have r : rgScalar ⟨fun l => l, fun R => √2 / R, fun R => 1 / R, fun _ => 1, fun _ => 1, 9, 0⟩ 2 = 2 := by norm_num [rgScalar]
  refine ⟨⟨1, 1, 1, 1, 1, 1, 1, true⟩, ⟨fun l => l, fun R => √2 / R, fun R => 1 / R, fun _ => 1, fun _ => 1, 9, 0⟩, by norm_num, by norm_num, ?_⟩
  rw [r]
  refine ⟨by norm_num, by norm_num, hasDerivAt_const _ _, by positivity, ?_⟩
  simp only [div_pow]
  rw [sq_sqrt (by norm_num)]
  norm_num

/-! ### Arrays -/

/-- Values for an array of actions are those for each of them when all angular momenta lie within the grid of guiding radii, or when
there is no grid. -/
theorem C90_array_partial (p : Par) (e : Env) (js : List (ℝ × ℝ × ℝ))
    (h : (∀ j ∈ js, e.Lzmin ≤ j.2.1 ∧ j.2.1 ≤ e.Lzmax) ∨ (∀ j ∈ js, e.Lzmax < j.2.1 ∧ j.2.1 < e.Lzmin)) :
    callArray p e js = js.map fun j => call p e none (some j) := by
  have key : ∀ j ∈ js, (if j.2.1 > e.Lzmax ∧ j.2.1 < e.Lzmin then e.rl j.2.1 else e.rgInterp j.2.1) = rgScalar e j.2.1 := fun j hj => by
    rcases h with h | h
    · have := h j hj
      rw [rgScalar, if_neg (by intro c; linarith [c.1]), if_neg (by rintro (c | c) <;> linarith)]
    · have := h j hj
      rw [rgScalar, if_pos ⟨this.1, this.2⟩, if_pos (Or.inl this.1)]
  unfold callArray rgArray
  simp only [List.map_map]
  rw [show ∀ g : ℝ × ℝ × ℝ → ℝ, js.zip (js.map g) = js.map fun j => (j, g j) from fun g => by
    clear key h
    induction js with
    | nil => rfl
    | cons a t ih => simp [ih], List.map_map]
  refine List.map_congr_left fun j hj => ?_
  simp only [Function.comp, key j hj, call]

example : callArray ⟨1, 1, 1, 1, 1, 1, 1, true⟩ ⟨fun l => l, fun _ => 1, fun _ => 1, fun _ => 1, fun l => l, 1, 3⟩ [(0, 2, 0), (1, 1, 0)]
    = [(0, 2, 0), (1, 1, 0)].map fun j => call ⟨1, 1, 1, 1, 1, 1, 1, true⟩ ⟨fun l => l, fun _ => 1, fun _ => 1, fun _ => 1, fun l => l, 1, 3⟩ none (some j) :=
  C90_array_partial _ _ _ (.inl fun j hj => by simp at hj; rcases hj with rfl | rfl <;> norm_num)

/-- Arrays of actions and numbers give different values for an angular momentum outside the grid: the array branch combines the two
range conditions with "and", so it always uses the interpolation. -/
theorem C90_array_fails : ∃ (p : Par) (e : Env) (j : ℝ × ℝ × ℝ), (∀ l ∈ Set.Icc e.Lzmin e.Lzmax, e.rgInterp l = e.rl l) ∧
    callArray p e [j] ≠ [call p e none (some j)] := by
  refine ⟨⟨1, 1, 1, 4, 4, 1, 1, true⟩, ⟨fun l => l, fun _ => 1, fun _ => 1, fun _ => 1, fun l => min l 1, 0, 1⟩, (0, 3, 0), fun l hl => min_eq_left hl.2, ?_⟩
  simp only [callArray, rgArray, call, rgScalar, linAt]
  norm_num
  have := tanh_pos 3
  have e1 : ∀ a b c : ℝ, exp a * exp b * exp c = exp (a + b + c) := fun a b c => by rw [exp_add, exp_add]
  intro h
  have h2 : (3 : ℝ) * (1 + tanh 3) = 1 / 3 * (1 + tanh 3) * (exp (-2) * exp 1 * exp 1) := by
    have : π ≠ 0 := pi_ne_zero
    field_simp at h ⊢
    nlinarith [h]
  rw [e1, show (-2 + 1 + 1 : ℝ) = 0 by norm_num, exp_zero] at h2
  nlinarith

/-- An isochrone action-angle object whose mass differs from that of the potential is accepted. -/
theorem C90_init_fails : ∃ (b amp amp' : ℝ), amp ≠ amp' ∧ acceptsIsochrone b amp (some (b, amp')) = true :=
  ⟨1, 1, 2, by norm_num, by simp [acceptsIsochrone]⟩

end Verif
