import Verif.Lemmas.StaeckelMotion
import Verif.Lemmas.StaeckelTurning
import Verif.Lemmas.StaeckelChi
import Verif.Props.C50Inverse

set_option autoImplicit false

/-!
# What `actionAngleStaeckel` computes, in terms of integrals along the motion
-/

noncomputable section
namespace Verif
open Real Set
open IsochroneAA (Point mod2pi)
open StaeckelAA
open C78Spec (SR SZ uOf vOf pu pv en third)

/-- The orbit turns at `a` and `b` in `u` and at `c` and `π - c` in `v`, and the turning points can be found: the squares of the momenta
are positive between the turning points only, the turning points are simple, and the sizes are within the limits of the
searches. -/
structure C78Spec.Bound (U V : ℝ → ℝ) (δ E Lz I a b c : ℝ) : Prop where
  a_pos : 2 / 10 ^ 8 ≤ a
  gap : a + 1 / 10 ^ 8 < b
  rel : 1 / 10 ^ 6 ≤ (b - a) / b
  b_le : b ≤ 100
  za : SR U δ E Lz I a = 0
  zb : SR U δ E Lz I b = 0
  inside : ∀ u, a < u → u < b → 0 < SR U δ E Lz I u
  outside : ∀ u, 0 < u → u < a ∨ b < u → SR U δ E Lz I u < 0
  da : 0 < deriv (SR U δ E Lz I) a
  db : deriv (SR U δ E Lz I) b < 0
  c_pos : 2 / 10 ^ 8 ≤ c
  rel' : 1 / 10 ^ 6 ≤ (π / 2 - c) / π * 2
  zc : SZ V δ E Lz I c = 0
  inside' : ∀ v, c < v → v < π - c → 0 < SZ V δ E Lz I v
  outside' : ∀ v, 0 < v → v < c → SZ V δ E Lz I v < 0
  dc : 0 < deriv (SZ V δ E Lz I) c

/-- A bound orbit in a Staeckel potential. -/
structure C78Spec.Orbit (pot FR FZ : ℝ → ℝ → ℝ) (δ : ℝ) (U V : ℝ → ℝ) (a b c : ℝ) (p : ℝ → Point) : Prop where
  staeckel : C78Spec.Staeckel pot FR FZ δ U V
  motion : C78Spec.Motion FR FZ p
  bound : C78Spec.Bound U V δ (en pot (p 0)) ((p 0).R * (p 0).vT) (third pot U δ (p 0)) a b c

namespace C78aux
variable {pot FR FZ : ℝ → ℝ → ℝ} {δ : ℝ} {U V : ℝ → ℝ} {p : ℝ → Point} {E L I a b c : ℝ}

/-! ### The functions under the radicals -/

theorem potUV_eq (pot : ℝ → ℝ → ℝ) (δ u v : ℝ) : potUV pot δ u v = phiUV pot δ u v := by
  simp [potUV, Coords.uv_to_Rz, phiUV]

theorem pihalf : (0 : ℝ) < π / 2 ∧ π / 2 < π := ⟨by positivity, by linarith [pi_pos]⟩

theorem s_ux (pot : ℝ → ℝ → ℝ) (δ : ℝ) (u0 : Option ℝ) (q : Point) : (single pot δ u0 q).ux = uOf δ q := uOf_eq δ q
theorem s_vx (pot : ℝ → ℝ → ℝ) (δ : ℝ) (u0 : Option ℝ) (q : Point) : (single pot δ u0 q).vx = vOf δ q := vOf_eq δ q
theorem s_pux (pot : ℝ → ℝ → ℝ) (δ : ℝ) (u0 : Option ℝ) (q : Point) : (single pot δ u0 q).pux = pu δ q := by
  rw [pu, ← uOf_eq, ← vOf_eq]; rfl
theorem s_pvx (pot : ℝ → ℝ → ℝ) (δ : ℝ) (u0 : Option ℝ) (q : Point) : (single pot δ u0 q).pvx = pv δ q := by
  rw [pv, ← uOf_eq, ← vOf_eq]; rfl
theorem s_E (pot : ℝ → ℝ → ℝ) (δ : ℝ) (u0 : Option ℝ) (q : Point) : (single pot δ u0 q).E = en pot q := rfl
theorem s_Lz (pot : ℝ → ℝ → ℝ) (δ : ℝ) (u0 : Option ℝ) (q : Point) : (single pot δ u0 q).Lz = q.R * q.vT := rfl

theorem s_I3U (pot : ℝ → ℝ → ℝ) (δ : ℝ) (u0 : Option ℝ) (q : Point) : (single pot δ u0 q).I3U =
    en pot q * sinh (uOf δ q) ^ 2 - pu δ q ^ 2 / 2 / δ ^ 2 - (q.R * q.vT) ^ 2 / 2 / δ ^ 2 / sinh (uOf δ q) ^ 2
    - (sinh (uOf δ q) ^ 2 + sin (π / 2) ^ 2) * potUV pot δ (uOf δ q) (π / 2)
    + (sinh (single pot δ u0 q).u0 ^ 2 + sin (π / 2) ^ 2) * potUV pot δ (single pot δ u0 q).u0 (π / 2) := by
  rw [pu, ← uOf_eq, ← vOf_eq]; rfl

theorem s_I3V (pot : ℝ → ℝ → ℝ) (δ : ℝ) (u0 : Option ℝ) (q : Point) : (single pot δ u0 q).I3V =
    -en pot q * sin (vOf δ q) ^ 2 + pv δ q ^ 2 / 2 / δ ^ 2 + (q.R * q.vT) ^ 2 / 2 / δ ^ 2 / sin (vOf δ q) ^ 2
    - (cosh (single pot δ u0 q).u0 ^ 2 * potUV pot δ (single pot δ u0 q).u0 (π / 2)
      - (sinh (single pot δ u0 q).u0 ^ 2 + sin (vOf δ q) ^ 2) * potUV pot δ (single pot δ u0 q).u0 (vOf δ q)) := by
  rw [pv, ← uOf_eq, ← vOf_eq]; rfl

theorem s_u0 (hδ : 0 < δ) (q : Point) (hR : 0 < q.R) (u0 : Option ℝ) (hu0 : ∀ x, u0 = some x → 0 < x) :
    0 < (single pot δ u0 q).u0 := by
  cases u0 with
  | none => show 0 < (Coords.Rz_to_uv q.R q.z δ false).1; rw [uOf_eq]; exact (uv_spec hδ q hR).2.2.1
  | some x => exact hu0 x rfl

theorem sR_eq (h : C78Spec.Staeckel pot FR FZ δ U V) (q : Point) (hR : 0 < q.R) (u0 : Option ℝ) {u : ℝ} (hu : 0 < u) :
    (single pot δ u0 q).sR pot δ u = SR U δ (en pot q) (q.R * q.vT) (third pot U δ q) u := by
  have hδ := h.delta
  obtain ⟨-, -, hux, -, -⟩ := uv_spec hδ q hR
  have e1 := h.sep u (π / 2) hu pihalf.1 pihalf.2
  have e2 := h.sep (uOf δ q) (π / 2) hux pihalf.1 pihalf.2
  have hs1 := sinh_pos_iff.2 hu
  have hs2 := sinh_pos_iff.2 hux
  unfold Single.sR jrSquared
  rw [s_I3U, s_E, s_Lz]
  have hv : (single pot δ u0 q).v0u = π / 2 := rfl
  rw [hv, potUV_eq, potUV_eq, potUV_eq]
  unfold phiUV SR third
  simp only
  rw [e1, e2]
  generalize (sinh (single pot δ u0 q).u0 ^ 2 + sin (π / 2) ^ 2) *
    pot (δ * sinh (single pot δ u0 q).u0 * sin (π / 2)) (δ * cosh (single pot δ u0 q).u0 * cos (π / 2)) = Y
  rw [show (q.R * q.vT) ^ 2 / (2 * δ ^ 2 * sinh u ^ 2) = (q.R * q.vT) ^ 2 / 2 / δ ^ 2 / sinh u ^ 2 by field_simp,
    show (q.R * q.vT) ^ 2 / (2 * δ ^ 2 * sinh (uOf δ q) ^ 2) = (q.R * q.vT) ^ 2 / 2 / δ ^ 2 / sinh (uOf δ q) ^ 2 by field_simp]
  ring

theorem sZ_eq (h : C78Spec.Staeckel pot FR FZ δ U V) (q : Point) (hR : 0 < q.R) (u0 : Option ℝ) (hu0 : ∀ x, u0 = some x → 0 < x) {v : ℝ}
    (hv : 0 < v) (hv' : v < π) :
    (single pot δ u0 q).sZ pot δ v = SZ V δ (en pot q) (q.R * q.vT) (third pot U δ q) v := by
  have hδ := h.delta
  have h0 := s_u0 (pot := pot) hδ q hR u0 hu0
  obtain ⟨-, -, hux, hvx, hvx'⟩ := uv_spec hδ q hR
  have e1 := h.sep _ v h0 hv hv'
  have e2 := h.sep _ (vOf δ q) h0 hvx hvx'
  have e3 := h.sep _ (π / 2) h0 pihalf.1 pihalf.2
  rw [sin_pi_div_two, one_pow, ← cosh_sq] at e3
  have hs1 := sin_pos_of_pos_of_lt_pi hv hv'
  have hs2 := sin_pos_of_pos_of_lt_pi hvx hvx'
  have hen := energy_v h q hR
  unfold Single.sZ jzSquared
  rw [s_I3V, s_E, s_Lz, hen]
  unfold SZ
  simp only
  rw [potUV_eq, potUV_eq, potUV_eq]
  unfold phiUV
  rw [sin_pi_div_two, e1, e2, e3]
  field_simp
  ring

/-! ### The wells -/

theorem V_sym (h : C78Spec.Staeckel pot FR FZ δ U V) {v : ℝ} (hv : 0 < v) (hv' : v < π) : V (π - v) = V v := by
  have e1 := h.sep 1 v one_pos hv hv'
  have e2 := h.sep 1 (π - v) one_pos (by linarith) (by linarith)
  rw [sin_pi_sub, cos_pi_sub, mul_neg, h.even] at e2
  linarith

theorem SZ_sym (h : C78Spec.Staeckel pot FR FZ δ U V) (E L I : ℝ) {v : ℝ} (hv : 0 < v) (hv' : v < π) :
    SZ V δ E L I (π - v) = SZ V δ E L I v := by
  unfold SZ
  rw [sin_pi_sub, V_sym h hv hv']

theorem SZ1_sym (h : C78Spec.Staeckel pot FR FZ δ U V) (E L : ℝ) {v : ℝ} (hv : 0 < v) (hv' : v < π) :
    SZ1 pot FR FZ δ E L (π - v) = -SZ1 pot FR FZ δ E L v := by
  have d1 := (has_SZ h E L 0 (v := π - v) (by linarith) (by linarith)).comp_const_sub π v
  rw [show (fun x => SZ V δ E L 0 (π - x)) = (fun x => SZ V δ E L 0 (π - x)) from rfl] at d1
  have d2 : HasDerivAt (fun x => SZ V δ E L 0 (π - x)) (SZ1 pot FR FZ δ E L v) v := by
    refine (has_SZ h E L 0 hv hv').congr_of_eventuallyEq ?_
    filter_upwards [lt_mem_nhds hv, gt_mem_nhds hv'] with x hx hx'
    exact SZ_sym h E L 0 hx hx'
  linarith [d1.unique d2]

theorem b_a0 (hb : C78Spec.Bound U V δ E L I a b c) : 0 < a := lt_of_lt_of_le (by norm_num) hb.a_pos
theorem b_c0 (hb : C78Spec.Bound U V δ E L I a b c) : 0 < c := lt_of_lt_of_le (by norm_num) hb.c_pos
theorem b_ab (hb : C78Spec.Bound U V δ E L I a b c) : a < b := by linarith [hb.gap, show (0 : ℝ) < 1 / 10 ^ 8 by norm_num]
theorem b_ch (hb : C78Spec.Bound U V δ E L I a b c) : c < π / 2 := by
  have h := hb.rel'
  by_contra hn
  have : (π / 2 - c) / π * 2 ≤ 0 := by
    have : (π / 2 - c) / π ≤ 0 := div_nonpos_of_nonpos_of_nonneg (by linarith) pi_pos.le
    linarith
  linarith [show (0 : ℝ) < 1 / 10 ^ 6 by norm_num]

theorem wellU (h : C78Spec.Staeckel pot FR FZ δ U V) (hb : C78Spec.Bound U V δ E L I a b c) :
    Well (fun u => δ ^ 2 * SR U δ E L I u) (fun u => δ ^ 2 * SR1 pot FR FZ δ E L u) a b := by
  have hδ := h.delta
  have ha := b_a0 hb
  have hab := b_ab hb
  refine ⟨hab, fun x hx => (has_SR h E L I (ha.trans_le hx.1)).const_mul _, ?_, ?_, ?_, fun x hx => ?_, ?_, ?_⟩
  · exact continuousOn_const.mul ((SR1_cont h E L).mono fun x hx => ha.trans_le hx.1)
  · simp only [hb.za, mul_zero]
  · simp only [hb.zb, mul_zero]
  · have := hb.inside x hx.1 hx.2
    positivity
  · have := hb.da
    rw [(has_SR h E L I ha).deriv] at this
    positivity
  · have := hb.db
    rw [(has_SR h E L I (ha.trans hab)).deriv] at this
    exact mul_neg_of_pos_of_neg (by positivity) this

theorem wellV (h : C78Spec.Staeckel pot FR FZ δ U V) (hb : C78Spec.Bound U V δ E L I a b c) :
    Well (fun v => δ ^ 2 * SZ V δ E L I v) (fun v => δ ^ 2 * SZ1 pot FR FZ δ E L v) c (π - c) := by
  have hδ := h.delta
  have hc := b_c0 hb
  have hch := b_ch hb
  have hd := hb.dc
  rw [(has_SZ h E L I hc (by linarith)).deriv] at hd
  refine ⟨by linarith, fun x hx => (has_SZ h E L I (hc.trans_le hx.1) (by linarith [hx.2])).const_mul _, ?_, ?_, ?_, fun x hx => ?_, ?_, ?_⟩
  · exact continuousOn_const.mul ((SZ1_cont h E L).mono fun x hx => ⟨hc.trans_le hx.1, by linarith [hx.2]⟩)
  · simp only [hb.zc, mul_zero]
  · rw [SZ_sym h E L I hc (by linarith), hb.zc, mul_zero]
  · have := hb.inside' x hx.1 hx.2
    positivity
  · positivity
  · rw [SZ1_sym h E L hc (by linarith)]
    have : 0 < δ ^ 2 * SZ1 pot FR FZ δ E L c := by positivity
    linarith

theorem outV (h : C78Spec.Staeckel pot FR FZ δ U V) (hb : C78Spec.Bound U V δ E L I a b c) {v : ℝ} (hv : 0 < v) (hv' : v < π)
    (h0 : 0 ≤ SZ V δ E L I v) : v ∈ Icc c (π - c) := by
  constructor
  · by_contra hn
    linarith [hb.outside' v hv (not_le.1 hn)]
  · by_contra hn
    push Not at hn
    have := hb.outside' (π - v) (by linarith) (by linarith)
    rw [SZ_sym h E L I hv hv'] at this
    linarith

theorem sgnU (hb : C78Spec.Bound U V δ E L I a b c) {S : ℝ → ℝ} (hS : ∀ u, 0 < u → S u = SR U δ E L I u) : Sgn S a b := by
  have ha := b_a0 hb
  have hab := b_ab hb
  refine ⟨hb.a_pos, hb.gap, hb.b_le, by rw [hS a ha, hb.za], by rw [hS b (ha.trans hab), hb.zb], fun u h1 h2 => ?_, fun u h1 h2 => ?_⟩
  · rw [hS u (ha.trans h1)]; exact hb.inside u h1 h2
  · rw [hS u h1]; exact hb.outside u h1 h2

/-! ### The integrals -/

/-- Factors of the integrals along the motion. -/
def cU (δ L : ℝ) : Key → ℝ
  | .E => δ ^ 2
  | .I3 => -δ ^ 2
  | .Lz => -L
def cV (δ L : ℝ) : Key → ℝ
  | .E => δ ^ 2
  | .I3 => δ ^ 2
  | .Lz => -L

def AU (U : ℝ → ℝ) (δ E L I a : ℝ) (k : Key) (x : ℝ) : ℝ := cU δ L k * Well.T (fun u => δ ^ 2 * SR U δ E L I u) (weightU k) a x
def AV (V : ℝ → ℝ) (δ E L I c : ℝ) (k : Key) (x : ℝ) : ℝ := cV δ L k * Well.T (fun v => δ ^ 2 * SZ V δ E L I v) (weightV k) c x

theorem weightU_cont (ha : 0 < a) (k : Key) : ContinuousOn (weightU k) (Icc a b) := by
  cases k
  · exact (by fun_prop : Continuous fun q : ℝ => sinh q ^ 2).continuousOn
  · exact continuousOn_const
  · refine ContinuousOn.div continuousOn_const (by fun_prop) fun q hq => ?_
    have := sinh_pos_iff.2 (ha.trans_le hq.1)
    positivity

theorem weightV_cont (hc : 0 < c) (k : Key) : ContinuousOn (weightV k) (Icc c (π - c)) := by
  cases k
  · exact (by fun_prop : Continuous fun q : ℝ => sin q ^ 2).continuousOn
  · exact continuousOn_const
  · refine ContinuousOn.div continuousOn_const (by fun_prop) fun q hq => ?_
    have := sin_pos_of_pos_of_lt_pi (hc.trans_le hq.1) (by linarith [hq.2])
    positivity

theorem T_pos {W W' k : ℝ → ℝ} (h : Well W W' a b) (hk : ContinuousOn k (Icc a b)) (hpos : ∀ x ∈ Ioo a b, 0 < k x) :
    0 < Well.T W k a b := by
  refine intervalIntegral.intervalIntegral_pos_of_pos_on (h.kw_ii hk ⟨le_rfl, h.lt.le⟩ ⟨h.lt.le, le_rfl⟩)
    (fun x hx => ?_) h.lt
  have := h.pos x hx
  have := hpos x hx
  simp only [Well.w]
  positivity

theorem sqrt2 : √2 * √2 = 2 := mul_self_sqrt (by norm_num)

section
variable (h : C78Spec.Staeckel pot FR FZ δ U V) (hb : C78Spec.Bound U V δ E L I a b c)
include h hb

theorem quadsU_eq {S : ℝ → ℝ} (hS : ∀ u, 0 < u → S u = SR U δ E L I u) (k : Key) {x : ℝ} (hx : x ∈ Icc a b) :
    quadsU S a b k (some x) = √2 * δ * Well.T (fun u => δ ^ 2 * SR U δ E L I u) (weightU k) a x := by
  have ha := b_a0 hb
  have hab := b_ab hb
  unfold quadsU
  simp only
  rw [chiWeight_eq (by linarith) ⟨hx.1, by linarith [hx.2]⟩ S (SR U δ E L I) _ fun y hy _ => hS y (ha.trans hy), weight_T h.delta]

theorem quadsU_none {S : ℝ → ℝ} (hS : ∀ u, 0 < u → S u = SR U δ E L I u) (k : Key) :
    quadsU S a b k none = √2 * δ * Well.T (fun u => δ ^ 2 * SR U δ E L I u) (weightU k) a b := by
  have hab := b_ab hb
  rw [← quadsU_eq h hb hS k ⟨hab.le, le_rfl⟩]
  unfold quadsU
  simp only
  congr 1
  rw [chi_full (a := a) (D := b - a) (by linarith)]
  congr 1
  ring

theorem dJR_eq {S : ℝ → ℝ} (hS : ∀ u, 0 < u → S u = SR U δ E L I u) (k : Key) :
    dJR S δ L a b k = AU U δ E L I a k b / π := by
  have hδ := h.delta
  unfold dJR
  rw [if_neg (not_lt.2 hb.rel), quadsU_none h hb hS k]
  have h2 := sqrt2
  have h2' : √2 ≠ 0 := by positivity
  have hp := pi_ne_zero
  cases k <;> simp only [AU, cU]
  · field_simp
  · field_simp
  · field_simp

theorem uBranch_eq {S : ℝ → ℝ} (hS : ∀ u, 0 < u → S u = SR U δ E L I u) {x pux : ℝ} (hx : x ∈ Icc a b) :
    let B := fun k => if pux > 0 then AU U δ E L I a k x else 2 * AU U δ E L I a k b - AU U δ E L I a k x;
    uBranch S δ L a b x pux (dJR S δ L a b) = (B .E, B .I3, B .Lz) := by
  have hδ := h.delta
  have h2 := sqrt2
  have h2' : √2 ≠ 0 := by positivity
  have hp := pi_ne_zero
  have e1 : a + √(x - a) ^ 2 = x := by rw [sq_sqrt (by linarith [hx.1])]; ring
  have e2 : b - √(b - x) ^ 2 = x := by rw [sq_sqrt (by linarith [hx.2])]; ring
  have d := dJR_eq h hb hS
  have q0 := quadsU_none h hb hS
  have q1 := fun k => quadsU_eq h hb hS k hx
  unfold uBranch
  simp only [uquad, e1, e2, d, q0, q1, if_true, Bool.false_eq_true, if_false, AU, cU]
  split_ifs <;> refine Prod.ext ?_ (Prod.ext ?_ ?_) <;> simp only <;> field_simp <;> ring

theorem quadsV_eq {S : ℝ → ℝ} (hS : ∀ v, 0 < v → v < π → S v = SZ V δ E L I v) (k : Key) {x : ℝ} (hx : x ∈ Icc c (π - c)) :
    quadsV S c k (some x) = √2 * δ * Well.T (fun v => δ ^ 2 * SZ V δ E L I v) (weightV k) c x := by
  have hc := b_c0 hb
  have hch := b_ch hb
  unfold quadsV
  simp only
  rw [chiWeight_eq (by linarith) ⟨hx.1, by linarith [hx.2]⟩ S (SZ V δ E L I) _
    fun y hy hy' => hS y (hc.trans hy) (by linarith [hx.2]), weight_T h.delta]

theorem quadsV_none {S : ℝ → ℝ} (hS : ∀ v, 0 < v → v < π → S v = SZ V δ E L I v) (k : Key) :
    quadsV S c k none = √2 * δ * Well.T (fun v => δ ^ 2 * SZ V δ E L I v) (weightV k) c (π / 2) := by
  have hch := b_ch hb
  rw [← quadsV_eq h hb hS k ⟨hch.le, by linarith⟩]
  unfold quadsV
  simp only
  congr 1
  have := chi_half (a := c) (D := π - 2 * c) (by linarith)
  rwa [show c + (π - 2 * c) / 2 = π / 2 by ring] at this

theorem AV_sym (k : Key) {x : ℝ} (hx : x ∈ Icc c (π - c)) :
    AV V δ E L I c k (π - x) = AV V δ E L I c k (π - c) - AV V δ E L I c k x := by
  have hc := b_c0 hb
  have hw := wellV h hb
  unfold AV
  rw [← mul_sub, ← hw.T_split (weightV_cont hc k) hx]
  congr 1
  have := intervalIntegral.integral_comp_sub_left (a := c) (b := π - x)
    (fun y => weightV k y * Well.w (fun v => δ ^ 2 * SZ V δ E L I v) y) π
  rw [show π - (π - x) = x by ring] at this
  rw [← this]
  unfold Well.T
  refine intervalIntegral.integral_congr fun y hy => ?_
  rw [uIcc_of_le (by linarith [hx.2])] at hy
  have hy0 : 0 < y := hc.trans_le hy.1
  have hy1 : y < π := by linarith [hy.2, hx.1]
  simp only [Well.w]
  rw [SZ_sym h E L I hy0 hy1]
  cases k <;> simp [weightV]

theorem AV_half (k : Key) : AV V δ E L I c k (π - c) = 2 * AV V δ E L I c k (π / 2) := by
  have hch := b_ch hb
  have := AV_sym h hb k (x := π / 2) ⟨hch.le, by linarith⟩
  rw [show π - π / 2 = π / 2 by ring] at this
  linarith

theorem dJz_eq {S : ℝ → ℝ} (hS : ∀ v, 0 < v → v < π → S v = SZ V δ E L I v) (k : Key) :
    dJz S δ L c k = AV V δ E L I c k (π - c) / π := by
  have hδ := h.delta
  unfold dJz
  rw [if_neg (not_lt.2 hb.rel'), quadsV_none h hb hS k, AV_half h hb k]
  have h2 := sqrt2
  have hp := pi_ne_zero
  cases k <;> simp only [AV, cV] <;> field_simp
  · linear_combination Well.T (fun v => δ ^ 2 * SZ V δ E L I v) (weightV .E) c (π / 2) * h2
  · linear_combination Well.T (fun v => δ ^ 2 * SZ V δ E L I v) (weightV .I3) c (π / 2) * h2
  · linear_combination -L * Well.T (fun v => δ ^ 2 * SZ V δ E L I v) (weightV .Lz) c (π / 2) * h2

theorem vBranch_eq {S : ℝ → ℝ} (hS : ∀ v, 0 < v → v < π → S v = SZ V δ E L I v) (k : Key) {x pvx : ℝ} (hx : x ∈ Icc c (π - c)) :
    vBranch S δ L c x pvx (dJz S δ L c) k
      = if pvx > 0 then AV V δ E L I c k x else 2 * AV V δ E L I c k (π - c) - AV V δ E L I c k x := by
  have hδ := h.delta
  have hch := b_ch hb
  have h2 := sqrt2
  have h2' : √2 ≠ 0 := by positivity
  have hp := pi_ne_zero
  have hx' : π - x ∈ Icc c (π - c) := ⟨by linarith [hx.2], by linarith [hx.1]⟩
  have conv : ∀ y, √2 * δ * Well.T (fun v => δ ^ 2 * SZ V δ E L I v) (weightV k) c y * vFactor δ L k = AV V δ E L I c k y := by
    intro y
    cases k <;> simp only [AV, cV, vFactor] <;> field_simp
  have lo : ∀ y ∈ Icc c (π - c), vquad S c k true (√(y - c)) * vFactor δ L k = AV V δ E L I c k y := by
    intro y hy
    simp only [vquad, if_true]
    rw [sq_sqrt (by linarith [hy.1]), show c + (y - c) = y by ring, quadsV_eq h hb hS k hy, conv]
  have hi : ∀ y ∈ Icc c (π - c), y ≤ π / 2 → vquad S c k false (√(π / 2 - y)) * vFactor δ L k
      = AV V δ E L I c k (π / 2) - AV V δ E L I c k y := by
    intro y hy hy'
    simp only [vquad, Bool.false_eq_true, if_false]
    rw [sq_sqrt (by linarith), show π / 2 - (π / 2 - y) = y by ring, quadsV_eq h hb hS k hy, quadsV_none h hb hS k, sub_mul,
      conv, conv]
  have lo1 := lo x hx
  have lo2 := lo (π - x) hx'
  have hsym := AV_sym h hb k hx
  have hhalf := AV_half h hb k
  have d := dJz_eq h hb hS k
  have hd : π * dJz S δ L c k = AV V δ E L I c k (π - c) := by rw [d]; field_simp
  have half : (0.5 : ℝ) * π = π / 2 := by norm_num; ring
  unfold vBranch
  simp only [half]
  rcases lt_trichotomy x (π / 2) with hl | hl | hl
  · have h1 : ¬ x > π / 2 := not_lt.2 hl.le
    rw [abs_of_pos (by linarith : 0 < π / 2 - x)]
    have hi1 := hi x hx hl.le
    simp only [if_neg h1, if_pos hl]
    rw [lo1, hi1]
    split_ifs <;> linarith
  · have h1 : ¬ x > π / 2 := not_lt.2 hl.le
    have h3 : ¬ x < π / 2 := not_lt.2 hl.ge
    have e0 : |π / 2 - x| = π / 2 - x := by rw [hl]; simp
    have hi1 := hi x hx hl.le
    simp only [if_neg h1, if_neg h3, e0]
    rw [lo1, hi1]
    rw [show π - x = x by linarith] at hsym
    rw [hl] at hsym ⊢
    split_ifs <;> linarith
  · have h3 : ¬ x < π / 2 := not_lt.2 hl.le
    have e0 : |π / 2 - x| = π / 2 - (π - x) := by rw [abs_of_neg (by linarith)]; ring
    have hi1 := hi (π - x) hx' (by linarith)
    simp only [if_pos hl, if_neg h3, e0]
    rw [lo2, hi1]
    split_ifs <;> linarith

/-! ### The actions -/

theorem calcJR_eq {S : ℝ → ℝ} (hS : ∀ u, 0 < u → S u = SR U δ E L I u) :
    calcJR S δ a b = 1 / π * ∫ u in a..b, √(2 * δ ^ 2 * SR U δ E L I u) := by
  have hδ := h.delta
  have ha := b_a0 hb
  have hab := b_ab hb
  have e1 : chiAction S a (b - a) π = ∫ u in a..b, √(SR U δ E L I u) := by
    have := chi_full (a := a) (D := b - a) (by linarith)
    rw [show a + (b - a) = b by ring] at this
    conv_lhs => rw [this]
    exact chiAction_eq (by linarith) ⟨hab.le, by linarith⟩ S (SR U δ E L I) fun y hy _ => hS y (ha.trans hy)
  unfold calcJR
  rw [if_neg (not_lt.2 hb.rel), e1, mul_assoc (1 / _), mul_assoc (1 / _), ← intervalIntegral.integral_const_mul]
  congr 1
  refine intervalIntegral.integral_congr fun y _ => ?_
  rw [sqrt_mul (by positivity), sqrt_mul two_pos.le, sqrt_sq hδ.le]

theorem calcJRquad_eq {S : ℝ → ℝ} (hS : ∀ u, 0 < u → S u = SR U δ E L I u) :
    calcJRquad S δ a b = 1 / π * ∫ u in a..b, √(2 * δ ^ 2 * SR U δ E L I u) := by
  have hδ := h.delta
  have ha := b_a0 hb
  have hab := b_ab hb
  unfold calcJRquad
  rw [if_neg (not_lt.2 hb.rel), mul_assoc (1 / _), mul_assoc (1 / _), ← intervalIntegral.integral_const_mul]
  congr 1
  refine intervalIntegral.integral_congr fun y hy => ?_
  rw [uIcc_of_le hab.le] at hy
  rw [hS y (ha.trans_le hy.1), sqrt_mul (by positivity), sqrt_mul two_pos.le, sqrt_sq hδ.le]

theorem small7 : ¬ π / 2 - c < 1 / 10 ^ 7 := by
  have h1 := hb.rel'
  have e : (π / 2 - c) / π * 2 = (π / 2 - c) * 2 / π := by ring
  rw [e, le_div_iff₀ pi_pos] at h1
  have := pi_gt_three
  have h67 : (1 : ℝ) / 10 ^ 7 = 1 / 10 ^ 6 / 10 := by norm_num
  rw [not_lt, h67]
  have : (0 : ℝ) < 1 / 10 ^ 6 := by norm_num
  nlinarith

theorem calcJz_eq {S : ℝ → ℝ} (hS : ∀ v, 0 < v → v < π → S v = SZ V δ E L I v) :
    calcJz S δ c = 2 / π * ∫ v in c..π / 2, √(2 * δ ^ 2 * SZ V δ E L I v) := by
  have hδ := h.delta
  have hc := b_c0 hb
  have hch := b_ch hb
  have e1 : chiAction S c (π - 2 * c) (π / 2) = ∫ v in c..π / 2, √(SZ V δ E L I v) := by
    have := chi_half (a := c) (D := π - 2 * c) (by linarith)
    rw [show c + (π - 2 * c) / 2 = π / 2 by ring] at this
    conv_lhs => rw [this]
    exact chiAction_eq (by linarith) ⟨hch.le, by linarith⟩ S (SZ V δ E L I) fun y hy hy' => hS y (hc.trans hy) (by linarith)
  unfold calcJz
  rw [if_neg (small7 h hb), e1, mul_assoc (2 / _), mul_assoc (2 / _), ← intervalIntegral.integral_const_mul]
  congr 1
  refine intervalIntegral.integral_congr fun y _ => ?_
  rw [sqrt_mul (by positivity), sqrt_mul two_pos.le, sqrt_sq hδ.le]

theorem calcJzquad_eq {S : ℝ → ℝ} (hS : ∀ v, 0 < v → v < π → S v = SZ V δ E L I v) :
    calcJzquad S δ c = 2 / π * ∫ v in c..π / 2, √(2 * δ ^ 2 * SZ V δ E L I v) := by
  have hδ := h.delta
  have hc := b_c0 hb
  have hch := b_ch hb
  unfold calcJzquad
  rw [if_neg (small7 h hb), mul_assoc (2 / _), mul_assoc (2 / _), ← intervalIntegral.integral_const_mul]
  congr 1
  refine intervalIntegral.integral_congr fun y hy => ?_
  rw [uIcc_of_le hch.le] at hy
  rw [hS y (hc.trans_le hy.1) (by linarith [hy.2, pi_pos]), sqrt_mul (by positivity), sqrt_mul two_pos.le, sqrt_sq hδ.le]

end
end C78aux
end Verif
