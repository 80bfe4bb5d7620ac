import Verif.Lemmas.StaeckelAngles
import Verif.Lemmas.StaeckelExample

set_option autoImplicit false

/-!
# C78: action-angle coordinates of Staeckel potentials

Along bound orbits in a Staeckel potential with the focal distance of the object, the actions and frequencies of `actionAngleStaeckel`
stay the same and the angles advance at the frequencies.
-/

noncomputable section
namespace Verif
open Real Set
open IsochroneAA (Point mod2pi)
open StaeckelAA
open C78Spec (SR SZ uOf vOf pu pv en third Orbit)
open C50Spec (Same)

/-- The momenta are zero or larger than the tolerances of the searches; at the turning point in `v` the point is above the
plane. -/
structure C78Spec.Clear (δ : ℝ) (q : Point) : Prop where
  u : pu δ q = 0 ∨ (1 / 10 ^ 7 ≤ |pu δ q| ∧ 1 / 10 ^ 10 ≤ pu δ q ^ 2 / (2 * δ ^ 2))
  v : (pv δ q = 0 ∧ 0 < q.z) ∨ 1 / 10 ^ 7 ≤ |pv δ q|

namespace C78aux
variable {pot FR FZ : ℝ → ℝ → ℝ} {δ : ℝ} {U V : ℝ → ℝ} {p : ℝ → Point} {E L I a b c : ℝ}

theorem bound' (o : Orbit pot FR FZ δ U V a b c p) (t : ℝ) :
    C78Spec.Bound U V δ (en pot (p t)) ((p t).R * (p t).vT) (third pot U δ (p t)) a b c := by
  rw [en_const o.staeckel.toPotential o.motion t 0, lz_const o.motion t 0, third_const o.staeckel o.motion t 0]
  exact o.bound

theorem u_mem (o : Orbit pot FR FZ δ U V a b c p) (t : ℝ) : uOf δ (p t) ∈ Icc a b := by
  have hδ := o.staeckel.delta
  obtain ⟨-, -, hu, hv, hv'⟩ := uv_spec hδ (p t) (o.motion.pos t)
  refine (sgnU (bound' o t) (S := SR U δ (en pot (p t)) ((p t).R * (p t).vT) (third pot U δ (p t))) fun _ _ => rfl).mem hu ?_
  have := energy_u o.staeckel (p t)
  by_contra hn
  push Not at hn
  nlinarith [mul_pos_of_neg_of_neg hn (show -δ ^ 2 < 0 by have := pow_pos hδ 2; linarith), sq_nonneg (pu δ (p t))]

theorem v_mem (o : Orbit pot FR FZ δ U V a b c p) (t : ℝ) : vOf δ (p t) ∈ Icc c (π - c) := by
  have hδ := o.staeckel.delta
  obtain ⟨-, -, hu, hv, hv'⟩ := uv_spec hδ (p t) (o.motion.pos t)
  refine outV o.staeckel (bound' o t) hv hv' ?_
  have := energy_v o.staeckel (p t) (o.motion.pos t)
  by_contra hn
  push Not at hn
  nlinarith [mul_pos_of_neg_of_neg hn (show -δ ^ 2 < 0 by have := pow_pos hδ 2; linarith), sq_nonneg (pv δ (p t))]

/-- The turning points are found. -/
theorem turningU (o : Orbit pot FR FZ δ U V a b c p) (t : ℝ)
    (hc : pu δ (p t) = 0 ∨ (1 / 10 ^ 7 ≤ |pu δ (p t)| ∧ 1 / 10 ^ 10 ≤ pu δ (p t) ^ 2 / (2 * δ ^ 2))) (u0 : Option ℝ) (r : Option (ℝ × ℝ)) :
    UminUmax ((single pot δ u0 (p t)).sR pot δ) (single pot δ u0 (p t)).ux (single pot δ u0 (p t)).pux r ↔ r = some (a, b) := by
  have hδ := o.staeckel.delta
  have hb := bound' o t
  have hR := o.motion.pos t
  obtain ⟨-, hz, hu, hv, hv'⟩ := uv_spec hδ (p t) hR
  have eu := energy_u o.staeckel (p t)
  have ev := energy_v o.staeckel (p t) hR
  have hδ2 : 0 < δ ^ 2 := by positivity
  have mu := u_mem o t
  have mv := v_mem o t
  rw [s_ux, s_pux]
  refine (sgnU hb (S := (single pot δ u0 (p t)).sR pot δ) fun u hu => sR_eq o.staeckel (p t) hR u0 hu).uminumax mu ?_ r
  rw [sR_eq o.staeckel (p t) hR u0 hu]
  rcases hc with h | ⟨h1, h2⟩
  · left
    refine ⟨h, ?_⟩
    rw [h] at eu
    have : δ ^ 2 * SR U δ (en pot (p t)) ((p t).R * (p t).vT) (third pot U δ (p t)) (uOf δ (p t)) = 0 := by linarith
    exact (mul_eq_zero.1 this).resolve_left hδ2.ne'
  · right
    refine ⟨h1, ?_⟩
    rwa [eu, show 2 * (δ ^ 2 * SR U δ (en pot (p t)) ((p t).R * (p t).vT) (third pot U δ (p t)) (uOf δ (p t))) / (2 * δ ^ 2)
      = SR U δ (en pot (p t)) ((p t).R * (p t).vT) (third pot U δ (p t)) (uOf δ (p t)) by field_simp] at h2

theorem turning (o : Orbit pot FR FZ δ U V a b c p) (t : ℝ) (hc : C78Spec.Clear δ (p t)) (u0 : Option ℝ) (hu0 : ∀ x, u0 = some x → 0 < x) :
    (∀ r, UminUmax ((single pot δ u0 (p t)).sR pot δ) (single pot δ u0 (p t)).ux (single pot δ u0 (p t)).pux r ↔ r = some (a, b)) ∧
    (∀ r, Vmin ((single pot δ u0 (p t)).sZ pot δ) (single pot δ u0 (p t)).vx (single pot δ u0 (p t)).pvx r ↔ r = some c) := by
  have hδ := o.staeckel.delta
  have hb := bound' o t
  have hR := o.motion.pos t
  obtain ⟨-, hz, hu, hv, hv'⟩ := uv_spec hδ (p t) hR
  have eu := energy_u o.staeckel (p t)
  have ev := energy_v o.staeckel (p t) hR
  have hδ2 : 0 < δ ^ 2 := by positivity
  have mu := u_mem o t
  have mv := v_mem o t
  constructor
  · exact turningU o t hc.u u0
  · intro r
    rw [s_vx, s_pvx]
    have hc0 := b_c0 hb
    have hch := b_ch hb
    have eS : ∀ v, 0 < v → v < π → _ := fun v h1 h2 => sZ_eq o.staeckel (p t) hR u0 hu0 h1 h2
    refine vmin hb.c_pos (by rw [eS c hc0 (by linarith), hb.zc]) (fun x h1 h2 => ?_) (fun x h1 h2 => ?_) ?_ r
    · rw [eS x h1 (by linarith)]; exact hb.outside' x h1 h2
    · rw [eS x (hc0.trans h1) (by linarith)]; exact hb.inside' x h1 h2
    · rcases hc.v with ⟨h1, h2⟩ | h1
      · left
        refine ⟨h1, ?_⟩
        rw [h1] at ev
        have h0 : SZ V δ (en pot (p t)) ((p t).R * (p t).vT) (third pot U δ (p t)) (vOf δ (p t)) = 0 := by
          have : δ ^ 2 * SZ V δ (en pot (p t)) ((p t).R * (p t).vT) (third pot U δ (p t)) (vOf δ (p t)) = 0 := by linarith
          exact (mul_eq_zero.1 this).resolve_left hδ2.ne'
        have hcos : 0 < cos (vOf δ (p t)) := by
          by_contra hn
          have hA := cosh_pos (uOf δ (p t))
          have : δ * cosh (uOf δ (p t)) * cos (vOf δ (p t)) ≤ 0 := mul_nonpos_of_nonneg_of_nonpos (by positivity) (not_lt.1 hn)
          linarith
        have hlt : vOf δ (p t) < π / 2 := by
          by_contra hn
          linarith [cos_nonpos_of_pi_div_two_le_of_le (not_lt.1 hn) (by linarith)]
        by_contra hne
        have := hb.inside' _ (lt_of_le_of_ne mv.1 (Ne.symm hne)) (by linarith)
        linarith
      · right
        have hpos : 0 < pv δ (p t) ^ 2 := by
          have : pv δ (p t) ≠ 0 := fun e => by rw [e, abs_zero] at h1; norm_num at h1
          positivity
        have hS : SZ V δ (en pot (p t)) ((p t).R * (p t).vT) (third pot U δ (p t)) (vOf δ (p t)) ≠ 0 := fun e => by
          rw [ev, e] at hpos; simp at hpos
        refine ⟨h1, lt_of_le_of_ne mv.1 fun e => hS (by rw [← e, hb.zc]), lt_of_le_of_ne mv.2 fun e => hS ?_⟩
        rw [e, SZ_sym o.staeckel _ _ _ hc0 (by linarith), hb.zc]

theorem outcome (o : Orbit pot FR FZ δ U V a b c p) (t : ℝ) (hc : C78Spec.Clear δ (p t)) (u0 : Option ℝ) (hu0 : ∀ x, u0 = some x → 0 < x)
    (out : Option Out) : Angles pot δ u0 (p t) out ↔ out = some (compute pot δ u0 (p t) a b c) := by
  obtain ⟨h1, h2⟩ := turning o t hc u0 hu0
  unfold Angles
  simp only [h1, h2, exists_eq_left, Option.map_some]

/-! ### The cycles -/

/-- What a branch adds up to. -/
def br (A : Key → ℝ → ℝ) (b x v : ℝ) (k : Key) : ℝ := if v > 0 then A k x else 2 * A k b - A k x

theorem br_sgn (A : Key → ℝ → ℝ) {a b x v : ℝ} (ha : ∀ k, A k a = 0) (hv : v = 0 → x = a ∨ x = b) :
    ∃ m : ℤ, ∀ k, br A b x v k = Well.sgn v * A k x + 2 * m * A k b := by
  unfold br Well.sgn
  rcases lt_trichotomy v 0 with h | h | h
  · refine ⟨1, fun k => ?_⟩
    rw [if_neg (not_lt.2 h.le), if_pos h]
    push_cast; ring
  · rcases hv h with e | e
    · refine ⟨1, fun k => ?_⟩
      rw [if_neg (not_lt.2 h.le), if_neg (not_lt.2 h.ge), e, ha]
      push_cast; ring
    · refine ⟨0, fun k => ?_⟩
      rw [if_neg (not_lt.2 h.le), if_neg (not_lt.2 h.ge), e]
      push_cast; ring
  · refine ⟨0, fun k => ?_⟩
    rw [if_pos h, if_neg (not_lt.2 h.le)]
    push_cast; ring

theorem br_cycles {W W' g x v : ℝ → ℝ} {a b : ℝ} (h : Well W W' a b) (m : Well.MovesG W W' a b g x v) (f : Key → ℝ → ℝ) (co : Key → ℝ)
    (hf : ∀ k, ContinuousOn (f k) (Icc a b)) (K : Key → ℝ → ℝ) (hK : ∀ k s, HasDerivAt (K k) (g s * (co k * f k (x s))) s) (t : ℝ) :
    ∃ n : ℤ, ∀ k, br (fun k y => co k * Well.T W (f k) a y) b (x t) (v t) k
      = br (fun k y => co k * Well.T W (f k) a y) b (x 0) (v 0) k + (K k t - K k 0) + 2 * n * (co k * Well.T W (f k) a b) := by
  obtain ⟨n, hn⟩ := m.cycles h t
  have h0 : ∀ k, (fun k y => co k * Well.T W (f k) a y) k a = 0 := fun k => by simp [Well.T_self]
  obtain ⟨m1, h1⟩ := br_sgn (fun k y => co k * Well.T W (f k) a y) (v := v t) (x := x t) (b := b) h0 fun e => m.at_end h e
  obtain ⟨m2, h2⟩ := br_sgn (fun k y => co k * Well.T W (f k) a y) (v := v 0) (x := x 0) (b := b) h0 fun e => m.at_end h e
  refine ⟨n + m1 - m2, fun k => ?_⟩
  rw [h1, h2]
  have key : ∀ y, Well.T W (fun z => co k * f k z) a y = co k * Well.T W (f k) a y := by
    intro y
    unfold Well.T
    rw [← intervalIntegral.integral_const_mul]
    congr 1
    funext z
    ring
  have := hn (fun z => co k * f k z) (K k) (continuousOn_const.mul (hf k)) (hK k)
  simp only [key] at this
  push_cast
  linear_combination this

theorem movesU (o : Orbit pot FR FZ δ U V a b c p) :
    Well.MovesG (fun u => δ ^ 2 * SR U δ (en pot (p 0)) ((p 0).R * (p 0).vT) (third pot U δ (p 0)) u)
      (fun u => δ ^ 2 * SR1 pot FR FZ δ (en pot (p 0)) ((p 0).R * (p 0).vT) u) a b
      (fun t => rate δ (p t)) (fun t => uOf δ (p t)) (fun t => pu δ (p t)) := by
  have hδ := o.staeckel.delta
  refine ⟨rate_cont o.staeckel o.motion, fun t => rate_pos hδ _ (o.motion.pos t), u_mem o, fun t => (duv hδ o.motion t).1, fun t => ?_, fun t => ?_⟩
  · have := dpu o.staeckel o.motion t
    rwa [en_const o.staeckel.toPotential o.motion t 0, lz_const o.motion t 0] at this
  · have := energy_u o.staeckel (p t)
    rwa [en_const o.staeckel.toPotential o.motion t 0, lz_const o.motion t 0, third_const o.staeckel o.motion t 0] at this

theorem movesV (o : Orbit pot FR FZ δ U V a b c p) :
    Well.MovesG (fun u => δ ^ 2 * SZ V δ (en pot (p 0)) ((p 0).R * (p 0).vT) (third pot U δ (p 0)) u)
      (fun u => δ ^ 2 * SZ1 pot FR FZ δ (en pot (p 0)) ((p 0).R * (p 0).vT) u) c (π - c)
      (fun t => rate δ (p t)) (fun t => vOf δ (p t)) (fun t => pv δ (p t)) := by
  have hδ := o.staeckel.delta
  refine ⟨rate_cont o.staeckel o.motion, fun t => rate_pos hδ _ (o.motion.pos t), v_mem o, fun t => (duv hδ o.motion t).2, fun t => ?_, fun t => ?_⟩
  · have := dpv o.staeckel o.motion t
    rwa [en_const o.staeckel.toPotential o.motion t 0, lz_const o.motion t 0] at this
  · have := energy_v o.staeckel (p t) (o.motion.pos t)
    rwa [en_const o.staeckel.toPotential o.motion t 0, lz_const o.motion t 0, third_const o.staeckel o.motion t 0] at this

/-- The sums of the branches at two times. -/
theorem sums (o : Orbit pot FR FZ δ U V a b c p) (t : ℝ) :
    let L := (p 0).R * (p 0).vT;
    let A := AU U δ (en pot (p 0)) L (third pot U δ (p 0)) a;
    let B := AV V δ (en pot (p 0)) L (third pot U δ (p 0)) c;
    let s := fun t k => br A b (uOf δ (p t)) (pu δ (p t)) k + br B (π - c) (vOf δ (p t)) (pv δ (p t)) k;
    ∃ n m : ℤ, s t .E = s 0 .E + t + 2 * n * A .E b + 2 * m * B .E (π - c) ∧
      s t .I3 = s 0 .I3 + 2 * n * A .I3 b + 2 * m * B .I3 (π - c) ∧
      s t .Lz = s 0 .Lz - ((p t).phi - (p 0).phi) + 2 * n * A .Lz b + 2 * m * B .Lz (π - c) := by
  intro L A B s
  have hδ := o.staeckel.delta
  have mU := movesU o
  have mV := movesV o
  have ha := b_a0 o.bound
  have hc := b_c0 o.bound
  -- primitives of the integrands along the motion
  have cu : ∀ k, Continuous fun t => rate δ (p t) * (cU δ L k * weightU k (uOf δ (p t))) := fun k =>
    mU.rate.mul (continuous_const.mul (mU.comp_cont (weightU_cont ha k)))
  have cv : ∀ k, Continuous fun t => rate δ (p t) * (cV δ L k * weightV k (vOf δ (p t))) := fun k =>
    mV.rate.mul (continuous_const.mul (mV.comp_cont (weightV_cont hc k)))
  have dU : ∀ k s, HasDerivAt (fun t => ∫ s in (0 : ℝ)..t, rate δ (p s) * (cU δ L k * weightU k (uOf δ (p s))))
      (rate δ (p s) * (cU δ L k * weightU k (uOf δ (p s)))) s := fun k s => ((cu k).integral_hasStrictDerivAt 0 s).hasDerivAt
  have dV : ∀ k s, HasDerivAt (fun t => ∫ s in (0 : ℝ)..t, rate δ (p s) * (cV δ L k * weightV k (vOf δ (p s))))
      (rate δ (p s) * (cV δ L k * weightV k (vOf δ (p s)))) s := fun k s => ((cv k).integral_hasStrictDerivAt 0 s).hasDerivAt
  obtain ⟨n, hn⟩ := br_cycles (wellU o.staeckel o.bound) mU weightU (cU δ L) (weightU_cont ha) _ dU t
  obtain ⟨m, hm⟩ := br_cycles (wellV o.staeckel o.bound) mV weightV (cV δ L) (weightV_cont hc) _ dV t
  have sumd : ∀ k s, HasDerivAt (fun t => (∫ s in (0 : ℝ)..t, rate δ (p s) * (cU δ L k * weightU k (uOf δ (p s))))
      + ∫ s in (0 : ℝ)..t, rate δ (p s) * (cV δ L k * weightV k (vOf δ (p s))))
      (rate δ (p s) * (cU δ L k * weightU k (uOf δ (p s)) + cV δ L k * weightV k (vOf δ (p s)))) s := fun k s =>
    (hd_add (dU k s) (dV k s)).congr_deriv (by ring)
  have fin : ∀ (k : Key) (f f' : ℝ → ℝ), (∀ s, HasDerivAt f (f' s) s) →
      (∀ s, rate δ (p s) * (cU δ L k * weightU k (uOf δ (p s)) + cV δ L k * weightV k (vOf δ (p s))) = f' s) →
      s t k = s 0 k + (f t - f 0) + 2 * n * A k b + 2 * m * B k (π - c) := by
    intro k f f' hf e
    have := C50aux.const_of_deriv (fun t => ((∫ s in (0 : ℝ)..t, rate δ (p s) * (cU δ L k * weightU k (uOf δ (p s))))
      + ∫ s in (0 : ℝ)..t, rate δ (p s) * (cV δ L k * weightV k (vOf δ (p s)))) - f t)
      (fun s => (hd_sub (sumd k s) (hf s)).congr_deriv (by rw [e s, sub_self])) t 0
    have h1 := hn k
    have h2 := hm k
    simp only [intervalIntegral.integral_same] at this h1 h2
    have h1' : br A b (uOf δ (p t)) (pu δ (p t)) k = _ := h1
    have h2' : br B (π - c) (vOf δ (p t)) (pv δ (p t)) k = _ := h2
    simp only [s]
    rw [h1', h2']
    have hA : cU δ L k * Well.T (fun u => δ ^ 2 * SR U δ (en pot (p 0)) L (third pot U δ (p 0)) u) (weightU k) a b = A k b := rfl
    have hB : cV δ L k * Well.T (fun u => δ ^ 2 * SZ V δ (en pot (p 0)) L (third pot U δ (p 0)) u) (weightV k) c (π - c) = B k (π - c) := rfl
    rw [hA, hB]
    have hA0 : br (fun k y => cU δ L k * Well.T (fun u => δ ^ 2 * SR U δ (en pot (p 0)) L (third pot U δ (p 0)) u) (weightU k) a y) b
      (uOf δ (p 0)) (pu δ (p 0)) k = br A b (uOf δ (p 0)) (pu δ (p 0)) k := rfl
    have hB0 : br (fun k y => cV δ L k * Well.T (fun u => δ ^ 2 * SZ V δ (en pot (p 0)) L (third pot U δ (p 0)) u) (weightV k) c y) (π - c)
      (vOf δ (p 0)) (pv δ (p 0)) k = br B (π - c) (vOf δ (p 0)) (pv δ (p 0)) k := rfl
    rw [hA0, hB0]
    linear_combination this
  have geo : ∀ s, 0 < sinh (uOf δ (p s)) ∧ 0 < sin (vOf δ (p s)) := fun s => by
    obtain ⟨-, -, hu, hv, hv'⟩ := uv_spec hδ (p s) (o.motion.pos s)
    exact ⟨sinh_pos_iff.2 hu, sin_pos_of_pos_of_lt_pi hv hv'⟩
  refine ⟨n, m, ?_, ?_, ?_⟩
  · rw [fin .E (fun t => t) (fun _ => 1) (fun s => hasDerivAt_id' s) fun s => ?_]
    · ring
    · obtain ⟨h1, h2⟩ := geo s
      simp only [rate, cU, cV, weightU, weightV]
      field_simp
  · rw [fin .I3 (fun _ => 0) (fun _ => 0) (fun s => hasDerivAt_const s 0) fun s => ?_]
    · ring
    · simp only [cU, cV, weightU, weightV]
      ring
  · rw [fin .Lz (fun t => -(p t).phi) (fun t => -((p t).vT / (p t).R)) (fun s => (o.motion.phi s).neg) fun s => ?_]
    · ring
    · obtain ⟨h1, h2⟩ := geo s
      have hR := o.motion.pos s
      have eR := (uv_spec hδ (p s) hR).1
      have eL : L = (p s).R * (p s).vT := lz_const o.motion 0 s
      have : (p s).vT / (p s).R = L / (p s).R ^ 2 := by rw [eL]; field_simp
      rw [this, eR]
      simp only [rate, cU, cV, weightU, weightV]
      field_simp
      ring

/-! ### Reduction to `[0, 2π)` -/

theorem wrapF_same (x : ℝ) : Same (wrapF x) x ∧ 0 ≤ wrapF x ∧ wrapF x < 2 * π := by
  have hp : 0 < 2 * π := by positivity
  unfold wrapF
  simp only
  split_ifs with h1 h2 h2
  · exact absurd h2 (not_lt.2 (by
      have := Int.floor_le (x / (2 * π)); rw [le_div_iff₀ hp] at this; linarith))
  · refine ⟨⟨-⌊x / (2 * π)⌋, by push_cast; ring⟩, not_lt.1 h2, ?_⟩
    have := Int.lt_floor_add_one (x / (2 * π))
    rw [div_lt_iff₀ hp] at this
    linarith
  · refine ⟨⟨-⌈x / (2 * π)⌉ + 1, by push_cast; ring⟩, ?_, by linarith⟩
    have := Int.ceil_lt_add_one (x / (2 * π))
    have h3 : (⌈x / (2 * π)⌉ : ℝ) * (2 * π) < x + 2 * π := by
      have := mul_lt_mul_of_pos_right this hp
      rw [add_mul, div_mul_cancel₀ _ hp.ne'] at this
      linarith
    linarith
  · refine ⟨⟨-⌈x / (2 * π)⌉, by push_cast; ring⟩, not_lt.1 h2, ?_⟩
    have := Int.le_ceil (x / (2 * π))
    rw [div_le_iff₀ hp] at this
    linarith

/-! ### The output -/

/-- The frequencies and coefficients from the derivatives of the actions. -/
theorem freqs_some (h : C78Spec.Staeckel pot FR FZ δ U V) (hb : C78Spec.Bound U V δ E L I a b c) :
    0 < AU U δ E L I a .E b * AV V δ E L I c .I3 (π - c) - AV V δ E L I c .E (π - c) * AU U δ E L I a .I3 b := by
  have hδ := h.delta
  have ha := b_a0 hb
  have hc := b_c0 hb
  have p1 := T_pos (wellU h hb) (weightU_cont ha .E) fun x hx => by
    have := sinh_pos_iff.2 (ha.trans hx.1)
    simp only [weightU]; positivity
  have p2 := T_pos (wellU h hb) (weightU_cont ha .I3) fun x hx => by simp [weightU]
  have p3 := T_pos (wellV h hb) (weightV_cont hc .E) fun x hx => by
    have := sin_pos_of_pos_of_lt_pi (hc.trans hx.1) (by linarith [hx.2])
    simp only [weightV]; positivity
  have p4 := T_pos (wellV h hb) (weightV_cont hc .I3) fun x hx => by simp [weightV]
  unfold AU AV
  simp only [cU, cV]
  generalize Well.T _ (weightU .E) a b = x1 at *
  generalize Well.T _ (weightU .I3) a b = x2 at *
  generalize Well.T _ (weightV .E) c (π - c) = x3 at *
  generalize Well.T _ (weightV .I3) c (π - c) = x4 at *
  have : 0 < δ ^ 2 * x1 * (δ ^ 2 * x4) + δ ^ 2 * x3 * (δ ^ 2 * x2) := by positivity
  linarith

/-- The derivatives of the actions. -/
def dA (U : ℝ → ℝ) (δ E L I a b : ℝ) (k : Key) : ℝ := AU U δ E L I a k b / π
def dB (V : ℝ → ℝ) (δ E L I c : ℝ) (k : Key) : ℝ := AV V δ E L I c k (π - c) / π
/-- The determinant. -/
def det (A B : Key → ℝ) : ℝ := A .E * B .I3 - B .E * A .I3

def omR (A B : Key → ℝ) : ℝ := B .I3 / det A B
def omZ (A B : Key → ℝ) : ℝ := -A .I3 / det A B
def omP (A B : Key → ℝ) : ℝ := (A .I3 * B .Lz - B .I3 * A .Lz) / det A B

/-- The sums of the branches. -/
def ss (pot : ℝ → ℝ → ℝ) (δ : ℝ) (U V : ℝ → ℝ) (p : ℝ → Point) (a b c t : ℝ) (k : Key) : ℝ :=
  br (AU U δ (en pot (p 0)) ((p 0).R * (p 0).vT) (third pot U δ (p 0)) a) b (uOf δ (p t)) (pu δ (p t)) k
    + br (AV V δ (en pot (p 0)) ((p 0).R * (p 0).vT) (third pot U δ (p 0)) c) (π - c) (vOf δ (p t)) (pv δ (p t)) k

/-- The angles before reduction. -/
def rawR (A B s : Key → ℝ) : ℝ := omR A B * s .E + -B .E / det A B * s .I3
def rawZ (A B s : Key → ℝ) : ℝ := omZ A B * s .E + A .E / det A B * s .I3 + 0.5 * π
def rawP (A B s : Key → ℝ) : ℝ := s .Lz + (omP A B * s .E + -(A .E * B .Lz - B .E * A .Lz) / det A B * s .I3)

theorem det_pos (o : Orbit pot FR FZ δ U V a b c p) :
    0 < det (dA U δ (en pot (p 0)) ((p 0).R * (p 0).vT) (third pot U δ (p 0)) a b)
      (dB V δ (en pot (p 0)) ((p 0).R * (p 0).vT) (third pot U δ (p 0)) c) := by
  have := freqs_some o.staeckel o.bound
  unfold det dA dB
  have e : ∀ x y z w : ℝ, x / π * (y / π) - z / π * (w / π) = (x * y - z * w) / π ^ 2 := fun x y z w => by field_simp
  rw [e]
  positivity

theorem compute_eq (o : Orbit pot FR FZ δ U V a b c p) (t : ℝ) (u0 : Option ℝ) (hu0 : ∀ x, u0 = some x → 0 < x) :
    let E := en pot (p 0);
    let L := (p 0).R * (p 0).vT;
    let I := third pot U δ (p 0);
    let A := dA U δ E L I a b;
    let B := dB V δ E L I c;
    compute pot δ u0 (p t) a b c =
      { jr := 1 / π * ∫ u in a..b, √(2 * δ ^ 2 * SR U δ E L I u)
        jphi := L
        jz := 2 / π * ∫ v in c..π / 2, √(2 * δ ^ 2 * SZ V δ E L I v)
        freqs := some (omR A B, omP A B, omZ A B)
        angles := some (wrapF (rawR A B (ss pot δ U V p a b c t)),
          mod2pi (rawP A B (ss pot δ U V p a b c t) + mod2pi (p t).phi), wrapF (rawZ A B (ss pot δ U V p a b c t))) } := by
  intro E L I A B
  have hR := o.motion.pos t
  have eL : (p t).R * (p t).vT = L := lz_const o.motion t 0
  have hS : ∀ u, 0 < u → (single pot δ u0 (p t)).sR pot δ u = SR U δ E L I u := fun u hu => by
    rw [sR_eq o.staeckel (p t) hR u0 hu, en_const o.staeckel.toPotential o.motion t 0, eL, third_const o.staeckel o.motion t 0]
  have hZ : ∀ v, 0 < v → v < π → (single pot δ u0 (p t)).sZ pot δ v = SZ V δ E L I v := fun v hv hv' => by
    rw [sZ_eq o.staeckel (p t) hR u0 hu0 hv hv', en_const o.staeckel.toPotential o.motion t 0, eL, third_const o.staeckel o.motion t 0]
  have hd : det A B ≠ 0 := (det_pos o).ne'
  have hA : dJR ((single pot δ u0 (p t)).sR pot δ) δ L a b = A := funext fun k => dJR_eq o.staeckel o.bound hS k
  have hB : dJz ((single pot δ u0 (p t)).sZ pot δ) δ L c = B := funext fun k => dJz_eq o.staeckel o.bound hZ k
  have hu : uBranch ((single pot δ u0 (p t)).sR pot δ) δ L a b (uOf δ (p t)) (pu δ (p t)) A
      = (br (AU U δ E L I a) b (uOf δ (p t)) (pu δ (p t)) .E, br (AU U δ E L I a) b (uOf δ (p t)) (pu δ (p t)) .I3,
        br (AU U δ E L I a) b (uOf δ (p t)) (pu δ (p t)) .Lz) := by
    rw [← hA]
    exact uBranch_eq (pux := pu δ (p t)) o.staeckel o.bound hS (u_mem o t)
  have hv : ∀ k, vBranch ((single pot δ u0 (p t)).sZ pot δ) δ L c (vOf δ (p t)) (pv δ (p t)) B k
      = br (AV V δ E L I c) (π - c) (vOf δ (p t)) (pv δ (p t)) k := fun k => by
    rw [← hB]
    exact vBranch_eq (pvx := pv δ (p t)) o.staeckel o.bound hZ k (v_mem o t)
  unfold compute
  simp only [s_Lz, s_ux, s_vx, s_pux, s_pvx, eL]
  rw [hA, hB, hu, calcJR_eq o.staeckel o.bound hS, calcJz_eq o.staeckel o.bound hZ]
  simp only [hv]
  rw [if_neg (not_lt.2 o.bound.rel)]
  have hf : calcFreqs A B = some ⟨omR A B, omP A B, omZ A B, -B .E / det A B, A .E / det A B, -(A .E * B .Lz - B .E * A .Lz) / det A B⟩ := by
    unfold calcFreqs
    exact if_neg hd
  rw [hf]
  rfl

/-- The angles advance at the frequencies. -/
theorem advance (o : Orbit pot FR FZ δ U V a b c p) (t : ℝ) :
    let A := dA U δ (en pot (p 0)) ((p 0).R * (p 0).vT) (third pot U δ (p 0)) a b;
    let B := dB V δ (en pot (p 0)) ((p 0).R * (p 0).vT) (third pot U δ (p 0)) c;
    let s := ss pot δ U V p a b c;
    Same (rawR A B (s t)) (rawR A B (s 0) + omR A B * t) ∧ Same (rawZ A B (s t)) (rawZ A B (s 0) + omZ A B * t) ∧
      Same (rawP A B (s t) + (p t).phi) (rawP A B (s 0) + (p 0).phi + omP A B * t) := by
  intro A B s
  obtain ⟨n, m, hE, hI, hL⟩ := sums o t
  have hp := pi_ne_zero
  have eA : ∀ k, AU U δ (en pot (p 0)) ((p 0).R * (p 0).vT) (third pot U δ (p 0)) a k b = π * A k := fun k => by
    simp only [A, dA]; field_simp
  have eB : ∀ k, AV V δ (en pot (p 0)) ((p 0).R * (p 0).vT) (third pot U δ (p 0)) c k (π - c) = π * B k := fun k => by
    simp only [B, dB]; field_simp
  simp only [eA, eB] at hE hI hL
  have hE' : s t .E = s 0 .E + t + 2 * n * (π * A .E) + 2 * m * (π * B .E) := hE
  have hI' : s t .I3 = s 0 .I3 + 2 * n * (π * A .I3) + 2 * m * (π * B .I3) := hI
  have hL' : s t .Lz = s 0 .Lz - ((p t).phi - (p 0).phi) + 2 * n * (π * A .Lz) + 2 * m * (π * B .Lz) := hL
  have hd : det A B ≠ 0 := (det_pos o).ne'
  have key : A .E * B .I3 - B .E * A .I3 = det A B := rfl
  refine ⟨⟨n, ?_⟩, ⟨m, ?_⟩, ⟨0, ?_⟩⟩
  · unfold rawR omR
    rw [hE', hI']
    field_simp
    rw [← key]
    ring
  · unfold rawZ omZ
    rw [hE', hI']
    field_simp
    rw [← key]
    ring
  · unfold rawP omP
    rw [hE', hI', hL']
    field_simp
    rw [← key]
    push_cast
    ring

end C78aux

open C78aux in
/-- Along a bound orbit in a Staeckel potential `actionsFreqsAngles` (without C) succeeds, whatever positive `u0` is given; the actions
are `(1/2π) ∮ p_u du`, `R v_T` and `(1/2π) ∮ p_v dv`, the actions and frequencies are the same at all times, and the angles, in
`[0, 2π)`, advance at the frequencies.  Partial: points whose momenta are within the tolerances of a turning point, the
turning point below the plane (where an exception is raised), and orbits too close to circular or planar are left out. -/
theorem C78_angles_partial {pot FR FZ : ℝ → ℝ → ℝ} {δ : ℝ} {U V : ℝ → ℝ} {a b c : ℝ} {p : ℝ → Point} (o : Orbit pot FR FZ δ U V a b c p) :
    ∃ omr omphi omz thr thphi thz : ℝ, 0 < omr ∧ 0 < omz ∧
      ∀ t, C78Spec.Clear δ (p t) → ∀ u0 : Option ℝ, (∀ x, u0 = some x → 0 < x) →
        (∃ out, Angles pot δ u0 (p t) out) ∧
        ∀ out, Angles pot δ u0 (p t) out → ∃ r ph z,
          out = some
            { jr := 1 / (2 * π) * (2 * ∫ u in a..b, √(2 * δ ^ 2 * SR U δ (en pot (p 0)) ((p 0).R * (p 0).vT) (third pot U δ (p 0)) u))
              jphi := (p 0).R * (p 0).vT
              jz := 1 / (2 * π) * (4 * ∫ v in c..π / 2, √(2 * δ ^ 2 * SZ V δ (en pot (p 0)) ((p 0).R * (p 0).vT) (third pot U δ (p 0)) v))
              freqs := some (omr, omphi, omz)
              angles := some (r, ph, z) } ∧
          r ∈ Ico 0 (2 * π) ∧ ph ∈ Ico 0 (2 * π) ∧ z ∈ Ico 0 (2 * π) ∧
          Same r (thr + omr * t) ∧ Same ph (thphi + omphi * t) ∧ Same z (thz + omz * t) := by
  set A := dA U δ (en pot (p 0)) ((p 0).R * (p 0).vT) (third pot U δ (p 0)) a b
  set B := dB V δ (en pot (p 0)) ((p 0).R * (p 0).vT) (third pot U δ (p 0)) c
  have hδ := o.staeckel.delta
  have hdet := det_pos o
  have ha := b_a0 o.bound
  have hc := b_c0 o.bound
  have p2 := T_pos (wellU o.staeckel o.bound) (weightU_cont ha .I3) fun x hx => by simp [weightU]
  have p4 := T_pos (wellV o.staeckel o.bound) (weightV_cont hc .I3) fun x hx => by simp [weightV]
  refine ⟨omR A B, omP A B, omZ A B, rawR A B (ss pot δ U V p a b c 0), rawP A B (ss pot δ U V p a b c 0) + (p 0).phi,
    rawZ A B (ss pot δ U V p a b c 0), ?_, ?_, fun t hcl u0 hu0 => ?_⟩
  · refine div_pos ?_ hdet
    simp only [B, dB, AV, cV]
    positivity
  · refine div_pos ?_ hdet
    simp only [A, dA, AU, cU]
    rw [← neg_div, neg_mul, neg_neg]
    positivity
  · have ho := outcome o t hcl u0 hu0
    have hcomp := compute_eq o t u0 hu0
    refine ⟨⟨_, (ho _).2 rfl⟩, fun out h => ?_⟩
    obtain ⟨a1, a2, a3⟩ := advance o t
    obtain ⟨w1, w2, w3⟩ := wrapF_same (rawR A B (ss pot δ U V p a b c t))
    obtain ⟨w4, w5, w6⟩ := wrapF_same (rawZ A B (ss pot δ U V p a b c t))
    refine ⟨_, mod2pi (rawP A B (ss pot δ U V p a b c t) + mod2pi (p t).phi), _, ((ho out).1 h).trans ?_, ⟨w2, w3⟩, C50aux.mod2pi_range _, ⟨w5, w6⟩, C50aux.same_trans w1 a1, ?_, C50aux.same_trans w4 a2⟩
    · rw [hcomp]
      have e1 : ∀ x : ℝ, 1 / π * x = 1 / (2 * π) * (2 * x) := fun x => by field_simp
      have e2 : ∀ x : ℝ, 2 / π * x = 1 / (2 * π) * (4 * x) := fun x => by field_simp; ring
      rw [e1, e2]
    · exact C50aux.same_trans (C50aux.same_mod _) (C50aux.same_trans
        (C50aux.same_add (C50aux.same_refl _) (C50aux.same_mod _)) a3)

theorem C78aux.Ex.clear0 : C78Spec.Clear 1 (C78aux.Ex.p 0) := ⟨.inl C78aux.Ex.pu0, .inl ⟨C78aux.Ex.pv0, C78aux.Ex.z0⟩⟩

-- An orbit of a harmonic oscillator, started at its highest point.
example : ∃ jr jz omr omphi omz r ph z, Angles C78aux.Ex.pot 1 none (C78aux.Ex.p 0)
    (some ⟨jr, 1, jz, some (omr, omphi, omz), some (r, ph, z)⟩) ∧ 0 < omr ∧ 0 < omz := by
  obtain ⟨omr, omphi, omz, _, _, _, h1, h2, h⟩ := C78_angles_partial C78aux.Ex.orbit
  obtain ⟨⟨out, ho⟩, h3⟩ := h 0 C78aux.Ex.clear0 none (by simp)
  obtain ⟨r, ph, z, e, -⟩ := h3 out ho
  rw [C78aux.Ex.lz0] at e
  exact ⟨_, _, omr, omphi, omz, r, ph, z, e ▸ ho, h1, h2⟩


open C78aux in
/-- The actions returned by calling the object (without C) are the same as those of `actionsFreqsAngles`, and the same at all times. -/
theorem C78_actions_partial {pot FR FZ : ℝ → ℝ → ℝ} {δ : ℝ} {U V : ℝ → ℝ} {a b c : ℝ} {p : ℝ → Point} (o : Orbit pot FR FZ δ U V a b c p)
    (t : ℝ) (hcl : C78Spec.Clear δ (p t)) (out : Option (ℝ × ℝ × ℝ)) :
    Actions pot δ (p t) out ↔ out = some
      (1 / (2 * π) * (2 * ∫ u in a..b, √(2 * δ ^ 2 * SR U δ (en pot (p 0)) ((p 0).R * (p 0).vT) (third pot U δ (p 0)) u)),
        (p 0).R * (p 0).vT,
        1 / (2 * π) * (4 * ∫ v in c..π / 2, √(2 * δ ^ 2 * SZ V δ (en pot (p 0)) ((p 0).R * (p 0).vT) (third pot U δ (p 0)) v))) := by
  obtain ⟨h1, h2⟩ := turning o t hcl none (by simp)
  have hR := o.motion.pos t
  have eL : (p t).R * (p t).vT = (p 0).R * (p 0).vT := lz_const o.motion t 0
  have hS : ∀ u, 0 < u → (single pot δ none (p t)).sR pot δ u = SR U δ (en pot (p 0)) ((p 0).R * (p 0).vT) (third pot U δ (p 0)) u := fun u hu => by
    rw [sR_eq o.staeckel (p t) hR none hu, en_const o.staeckel.toPotential o.motion t 0, eL, third_const o.staeckel o.motion t 0]
  have hZ : ∀ v, 0 < v → v < π → (single pot δ none (p t)).sZ pot δ v
      = SZ V δ (en pot (p 0)) ((p 0).R * (p 0).vT) (third pot U δ (p 0)) v := fun v hv hv' => by
    rw [sZ_eq o.staeckel (p t) hR none (by simp) hv hv', en_const o.staeckel.toPotential o.motion t 0, eL, third_const o.staeckel o.motion t 0]
  have e1 : ∀ x : ℝ, 1 / π * x = 1 / (2 * π) * (2 * x) := fun x => by field_simp
  have e2 : ∀ x : ℝ, 2 / π * x = 1 / (2 * π) * (4 * x) := fun x => by field_simp; ring
  unfold Actions
  simp only [h1, h2, exists_eq_left, Option.map_some, calcJRquad_eq o.staeckel o.bound hS, calcJzquad_eq o.staeckel o.bound hZ, eL, e1, e2]

example : ∃ jr jz, Actions C78aux.Ex.pot 1 (C78aux.Ex.p 0) (some (jr, 1, jz)) := by
  have h := (C78_actions_partial C78aux.Ex.orbit 0 C78aux.Ex.clear0 _).2 rfl
  rw [C78aux.Ex.lz0] at h
  exact ⟨_, _, h⟩


open C78aux in
/-- The third integral computed from the vertical motion is conserved along every motion in a Staeckel potential and does not depend on
`u0`; the one computed from the radial motion differs from it by the reference value at `u0`. -/
theorem C78_I3 {pot FR FZ : ℝ → ℝ → ℝ} {δ : ℝ} {U V : ℝ → ℝ} {p : ℝ → Point} (h : C78Spec.Staeckel pot FR FZ δ U V)
    (m : C78Spec.Motion FR FZ p) (u0 u1 : Option ℝ) (hu0 : ∀ x, u0 = some x → 0 < x) (hu1 : ∀ x, u1 = some x → 0 < x) (t s : ℝ) :
    (single pot δ u0 (p t)).I3V = (single pot δ u1 (p s)).I3V ∧
    (single pot δ u0 (p t)).I3U = (single pot δ u0 (p t)).I3V
      + cosh (single pot δ u0 (p t)).u0 ^ 2 * pot (δ * sinh (single pot δ u0 (p t)).u0) 0 := by
  have key : ∀ (u0 : Option ℝ), (∀ x, u0 = some x → 0 < x) → ∀ t, (single pot δ u0 (p t)).I3V = third pot U δ (p t) + V (π / 2) := by
    intro u0 hu0 t
    have e := sZ_eq h (p t) (m.pos t) u0 hu0 pihalf.1 pihalf.2
    unfold Single.sZ jzSquared SZ at e
    rw [s_E, s_Lz] at e
    simp only [sin_pi_div_two, one_pow, mul_one, div_one] at e
    rw [← cosh_sq, sub_self, add_zero, div_div] at e
    linarith
  have hR := m.pos t
  refine ⟨by rw [key u0 hu0, key u1 hu1, third_const h m t s], ?_⟩
  have hδ := h.delta
  obtain ⟨-, -, hux, -, -⟩ := uv_spec hδ (p t) hR
  have e := sR_eq h (p t) hR u0 hux
  unfold Single.sR jrSquared SR at e
  rw [s_E, s_Lz] at e
  have hv : (single pot δ u0 (p t)).v0u = π / 2 := rfl
  have e2 := h.sep (uOf δ (p t)) (π / 2) hux pihalf.1 pihalf.2
  rw [hv, potUV_eq, potUV_eq] at e
  unfold phiUV at e
  simp only at e
  rw [e2] at e
  rw [sin_pi_div_two, one_pow, ← cosh_sq, cos_pi_div_two, mul_one, mul_zero] at e
  rw [key u0 hu0]
  have e3 : ((p t).R * (p t).vT) ^ 2 / (2 * δ ^ 2 * sinh (uOf δ (p t)) ^ 2) = ((p t).R * (p t).vT) ^ 2 / 2 / δ ^ 2 / sinh (uOf δ (p t)) ^ 2 := by
    rw [div_div, div_div]; congr 1; ring
  rw [e3] at e
  linarith

example (t : ℝ) : (single C78aux.Ex.pot 1 (some 2) (C78aux.Ex.p t)).I3V = (single C78aux.Ex.pot 1 none (C78aux.Ex.p 0)).I3V :=
  (C78_I3 C78aux.Ex.staeckel C78aux.Ex.motion (some 2) none (by simp) (by simp) t 0).1


/-- For every potential, Staeckel or not, the function that determines the radial action does not depend on the reference `u0`. -/
theorem C78_u0 (pot : ℝ → ℝ → ℝ) (δ : ℝ) (q : Point) (u0 u1 : Option ℝ) (u : ℝ) :
    (single pot δ u0 q).sR pot δ u = (single pot δ u1 q).sR pot δ u := by
  unfold Single.sR jrSquared
  rw [C78aux.s_I3U, C78aux.s_I3U]
  simp only [C78aux.s_E, C78aux.s_Lz, show ∀ w, (single pot δ w q).v0u = π / 2 from fun _ => rfl]
  ring

example (u : ℝ) : (single (fun R z => log (R ^ 2 + (z / 0.9) ^ 2)) 0.4 (some 1) ⟨1, 0.1, 1.1, 0.1, 0.1, 0⟩).sR (fun R z => log (R ^ 2 + (z / 0.9) ^ 2)) 0.4 u =
    (single (fun R z => log (R ^ 2 + (z / 0.9) ^ 2)) 0.4 none ⟨1, 0.1, 1.1, 0.1, 0.1, 0⟩).sR (fun R z => log (R ^ 2 + (z / 0.9) ^ 2)) 0.4 u :=
  C78_u0 _ _ _ _ _ _


open C78aux in
/-- The computed pericentre, apocentre and largest height bound the orbit at all times, and the largest height and the pericentre in
the plane are those of the coordinate surfaces where the orbit turns. -/
theorem C78_ecc_partial {pot FR FZ : ℝ → ℝ → ℝ} {δ : ℝ} {U V : ℝ → ℝ} {a b c : ℝ} {p : ℝ → Point} (o : Orbit pot FR FZ δ U V a b c p)
    (t : ℝ) (hcl : C78Spec.Clear δ (p t)) :
    (∃ out, Ecc pot δ (p t) out) ∧ ∀ out, Ecc pot δ (p t) out → ∃ e zmax rperi rap, out = some (e, zmax, rperi, rap) ∧
      e = (rap - rperi) / (rap + rperi) ∧ 0 < rperi ∧ 0 < zmax ∧
      (∀ s, rperi ≤ √((p s).R ^ 2 + (p s).z ^ 2) ∧ √((p s).R ^ 2 + (p s).z ^ 2) ≤ rap ∧ |(p s).z| ≤ zmax) ∧
      (∀ s, uOf δ (p s) = a → (p s).z = 0 → (p s).R = rperi) ∧
      (∀ s, uOf δ (p s) = b → (vOf δ (p s) = c ∨ vOf δ (p s) = π - c) →
        √((p s).R ^ 2 + (p s).z ^ 2) = rap ∧ |(p s).z| = zmax) := by
  have hδ := o.staeckel.delta
  have ha := b_a0 o.bound
  have hab := b_ab o.bound
  have hc := b_c0 o.bound
  have hch := b_ch o.bound
  obtain ⟨h1, h2⟩ := turning o t hcl none (by simp)
  have hE : ∀ out, Ecc pot δ (p t) out ↔ out = some
      ((√((δ * sinh b * sin c) ^ 2 + (δ * cosh b * cos c) ^ 2) - δ * sinh a) / (√((δ * sinh b * sin c) ^ 2 + (δ * cosh b * cos c) ^ 2) + δ * sinh a),
        δ * cosh b * cos c, δ * sinh a, √((δ * sinh b * sin c) ^ 2 + (δ * cosh b * cos c) ^ 2)) := by
    intro out
    unfold Ecc
    simp only [h1, h2, exists_eq_left, Option.map_some, Coords.uv_to_Rz, Bool.false_eq_true, if_false, sin_pi_div_two, mul_one]
  have hsa := sinh_pos_iff.2 ha
  have hcc : 0 < cos c := cos_pos_of_mem_Ioo ⟨by linarith, hch⟩
  have hchb := cosh_pos b
  -- the distance in the coordinates
  have rr : ∀ u v : ℝ, (δ * sinh u * sin v) ^ 2 + (δ * cosh u * cos v) ^ 2 = δ ^ 2 * (sinh u ^ 2 + cos v ^ 2) := fun u v => by
    linear_combination δ ^ 2 * cos v ^ 2 * cosh_sq u + δ ^ 2 * sinh u ^ 2 * sin_sq_add_cos_sq v
  have cosle : ∀ s, |cos (vOf δ (p s))| ≤ cos c := by
    intro s
    have mv := v_mem o s
    rw [abs_le]
    constructor
    · have := cos_le_cos_of_nonneg_of_le_pi (hc.le.trans mv.1) (by linarith) mv.2
      rw [cos_pi_sub] at this
      exact this
    · exact cos_le_cos_of_nonneg_of_le_pi hc.le (by linarith [mv.2]) mv.1
  refine ⟨⟨_, (hE _).2 rfl⟩, fun out h => ⟨_, _, _, _, (hE out).1 h, rfl, by positivity, by positivity, fun s => ?_, fun s hu hz => ?_,
    fun s hu hvc => ?_⟩⟩
  · obtain ⟨eR, ez, hu, hv, hv'⟩ := uv_spec hδ (p s) (o.motion.pos s)
    have mu := u_mem o s
    have hcos := cosle s
    have hcos2 : cos (vOf δ (p s)) ^ 2 ≤ cos c ^ 2 := by rw [← sq_abs (cos (vOf δ (p s)))]; exact pow_le_pow_left₀ (abs_nonneg _) hcos 2
    have s1 : sinh a ≤ sinh (uOf δ (p s)) := sinh_le_sinh.2 mu.1
    have s2 : sinh (uOf δ (p s)) ≤ sinh b := sinh_le_sinh.2 mu.2
    have s3 : cosh (uOf δ (p s)) ≤ cosh b := cosh_le_cosh.2 (by rw [abs_of_pos hu, abs_of_pos (ha.trans hab)]; exact mu.2)
    have hsu := sinh_pos_iff.2 hu
    rw [eR, ez, rr, rr]
    refine ⟨?_, ?_, ?_⟩
    · refine le_sqrt_of_sq_le ?_
      nlinarith [pow_le_pow_left₀ hsa.le s1 2, sq_nonneg (cos (vOf δ (p s))), pow_pos hδ 2]
    · refine sqrt_le_sqrt (mul_le_mul_of_nonneg_left ?_ (by positivity))
      linarith [pow_le_pow_left₀ hsu.le s2 2]
    · rw [abs_mul, abs_of_pos (mul_pos hδ (cosh_pos _))]
      exact mul_le_mul (mul_le_mul_of_nonneg_left s3 hδ.le) hcos (abs_nonneg _) (by positivity)
  · obtain ⟨eR, ez, hu', hv, hv'⟩ := uv_spec hδ (p s) (o.motion.pos s)
    have hcos : cos (vOf δ (p s)) = 0 := by
      have := cosh_pos (uOf δ (p s))
      rw [hz] at ez
      have h3 : δ * cosh (uOf δ (p s)) * cos (vOf δ (p s)) = 0 := ez.symm
      exact (mul_eq_zero.1 h3).resolve_left (by positivity)
    have hsin : sin (vOf δ (p s)) = 1 := by
      have h4 := sin_sq_add_cos_sq (vOf δ (p s))
      have h5 := sin_pos_of_pos_of_lt_pi hv hv'
      rw [hcos] at h4
      nlinarith
    rw [eR, hsin, hu, mul_one]
  · obtain ⟨eR, ez, hu', hv, hv'⟩ := uv_spec hδ (p s) (o.motion.pos s)
    rw [eR, ez, rr, rr, hu]
    rcases hvc with e | e <;> rw [e]
    · exact ⟨rfl, by rw [abs_of_pos (by positivity)]⟩
    · rw [cos_pi_sub, neg_sq]
      refine ⟨rfl, ?_⟩
      rw [mul_neg, abs_neg, abs_of_pos (by positivity)]

example : ∃ e zmax rperi rap, Ecc C78aux.Ex.pot 1 (C78aux.Ex.p 0) (some (e, zmax, rperi, rap)) ∧ 0 < rperi := by
  obtain ⟨⟨out, ho⟩, h⟩ := C78_ecc_partial C78aux.Ex.orbit 0 C78aux.Ex.clear0
  obtain ⟨e, zmax, rperi, rap, eq, -, hp, -⟩ := h out ho
  exact ⟨e, zmax, rperi, rap, eq ▸ ho, hp⟩


end Verif
