import Verif.Model.Pot.Ellipsoidal
import Verif.Util.EllipsoidInt
import Verif.Util.Cart

set_option autoImplicit false

/-! # Ellipsoidal potentials -/

open Set MeasureTheory Filter Topology

namespace Verif.Ellipsoidal
open Real hiding pi
open EllInt

/-! ### Coefficients -/

/-- `1/(β + t)` at `t = 1/s² - 1`. -/
noncomputable def co (β s : ℝ) : ℝ := 1 / (β + (1 / s ^ 2 - 1))
/-- `1/√((1 + (b2-1) s²)(1 + (c2-1) s²))`. -/
noncomputable def om (b2 c2 s : ℝ) : ℝ := 1 / √((1 + (b2 - 1) * s ^ 2) * (1 + (c2 - 1) * s ^ 2))

theorem lin_pos {β s : ℝ} (hβ : 0 < β) (hs : s ∈ Ioc (0:ℝ) 1) : 0 < 1 + (β - 1) * s ^ 2 := by
  have h2 : s ^ 2 ≤ 1 := pow_le_one₀ hs.1.le hs.2
  have h0 : 0 < s ^ 2 := by have := hs.1; positivity
  nlinarith
theorem co_eq {β s : ℝ} (hs : s ∈ Ioc (0:ℝ) 1) : co β s = s ^ 2 / (1 + (β - 1) * s ^ 2) := by
  have := hs.1
  unfold co
  rw [show β + (1 / s ^ 2 - 1) = (1 + (β - 1) * s ^ 2) / s ^ 2 by field_simp; ring, one_div_div]

theorem sq_co {β : ℝ} (hβ : 0 < β) : Sq (co β) := by
  have hb : ∀ s ∈ Ioc (0:ℝ) 1, min 1 β ≤ 1 + (β - 1) * s ^ 2 ∧ 1 + (β - 1) * s ^ 2 ≤ max 1 β := by
    intro s hs
    have h2 : s ^ 2 ≤ 1 := pow_le_one₀ hs.1.le hs.2
    have h0 : 0 < s ^ 2 := by have := hs.1; positivity
    rcases le_total 1 β with h | h
    · rw [min_eq_left h, max_eq_right h]; constructor <;> nlinarith
    · rw [min_eq_right h, max_eq_left h]; constructor <;> nlinarith
  refine ⟨?_, ⟨1 / max 1 β, by positivity, fun s hs => ?_⟩, ⟨1 / min 1 β, by positivity, fun s hs => ?_⟩⟩
  · refine ContinuousOn.congr (f := fun s => s ^ 2 / (1 + (β - 1) * s ^ 2)) ?_ fun s hs => co_eq hs
    exact ContinuousOn.div (by fun_prop) (by fun_prop) fun s hs => (lin_pos hβ hs).ne'
  · rw [co_eq hs, div_eq_inv_mul (s ^ 2), one_div]
    have := (hb s hs).2
    have := lin_pos hβ hs
    gcongr
  · rw [co_eq hs, div_eq_inv_mul (s ^ 2), one_div]
    have := (hb s hs).1
    gcongr

theorem wt_om {b2 c2 : ℝ} (hb : 0 < b2) (hc : 0 < c2) : Wt 0 (om b2 c2) := by
  have c1 : ContinuousOn (om b2 c2) (Icc 0 1) := by
    refine ContinuousOn.div (by fun_prop) (by fun_prop) fun s hs => ?_
    have h2 : s ^ 2 ≤ 1 := pow_le_one₀ hs.1 hs.2
    have h : ∀ β : ℝ, 0 < β → 0 < 1 + (β - 1) * s ^ 2 := by
      intro β hβ
      rcases (sq_nonneg s).eq_or_lt with h0 | h0
      · rw [← h0]; norm_num
      · nlinarith
    have h1 := h b2 hb
    have h3 := h c2 hc
    positivity
  obtain ⟨W, hW⟩ := isCompact_Icc.exists_bound_of_continuousOn c1
  refine ⟨c1.mono Ioc_subset_Icc_self, max W 0, le_max_right _ _, fun s hs => ?_⟩
  rw [rpow_zero, mul_one]
  exact (hW s (Ioc_subset_Icc_self hs)).trans (le_max_left _ _)

/-! ### Quadratures -/

/-- The integral, or the sum over nodes. -/
noncomputable def quad (gl : Option (List (ℝ × ℝ))) (f : ℝ → ℝ) : ℝ :=
  match gl with
  | none => ∫ s in (0:ℝ)..1, f s
  | some l => (l.map fun n => n.2 * f n.1).sum

/-- All nodes are in `(0, 1]`. -/
def NodesOK (gl : Option (List (ℝ × ℝ))) : Prop := ∀ l, gl = some l → ∀ n ∈ l, 0 < n.1 ∧ n.1 ≤ 1

theorem quad_congr {gl : Option (List (ℝ × ℝ))} (hg : NodesOK gl) {f g : ℝ → ℝ} (h : ∀ s ∈ Ioc (0:ℝ) 1, f s = g s) :
    quad gl f = quad gl g := by
  cases gl with
  | none =>
    refine intervalIntegral.integral_congr_ae (ae_of_all _ fun s hs => h s ?_)
    rwa [uIoc_of_le zero_le_one] at hs
  | some l =>
    refine congrArg List.sum (List.map_congr_left fun n hn => ?_)
    rw [h n.1 (hg l rfl n hn)]

theorem quad_mul (gl : Option (List (ℝ × ℝ))) (c : ℝ) (f : ℝ → ℝ) : quad gl (fun s => c * f s) = c * quad gl f := by
  cases gl with
  | none => exact intervalIntegral.integral_const_mul c f
  | some l =>
    simp only [quad]
    rw [← List.sum_map_mul_left]
    exact congrArg List.sum (List.map_congr_left fun n _ => by ring)

/-- Integrability, where it matters. -/
def QInt (gl : Option (List (ℝ × ℝ))) (f : ℝ → ℝ) : Prop := gl = none → IntervalIntegrable f volume 0 1

theorem quad_add {gl : Option (List (ℝ × ℝ))} {f g : ℝ → ℝ} (hf : QInt gl f) (hg : QInt gl g) :
    quad gl (fun s => f s + g s) = quad gl f + quad gl g := by
  cases gl with
  | none => exact intervalIntegral.integral_add (hf rfl) (hg rfl)
  | some l =>
    simp only [quad]
    rw [← List.sum_map_add]
    exact congrArg List.sum (List.map_congr_left fun n _ => by ring)

/-! ### Profiles -/

/-- `_psi`, `_mdens`, `_mdens_deriv` fit together: `ψ' = 2 m ρ`, and the derivative of the density. -/
structure Profile.OK (P : Profile) : Prop where
  dpsi : ∀ m : ℝ, 0 < m → HasDerivAt P.psi (2 * m * P.mdens m) m
  ddens : ∀ m : ℝ, 0 < m → HasDerivAt P.mdens (P.mdensDeriv m) m

/-- The profile has an integrable singularity at the centre: `ρ` is at most of order `m ^ (-2 - 2 κ)`, `κ < 1/2`. -/
def Profile.Mild (P : Profile) : Prop :=
  ∃ κ : ℝ, 0 ≤ κ ∧ κ < 1 / 2 ∧ Bdd κ (fun v => P.psi √v) ∧ Bdd (κ + 1) (fun v => P.mdens √v)
    ∧ Bdd (κ + 2) (fun v => P.mdensDeriv √v / √v)

variable {p : Par}

/-- What is needed of an object. -/
structure Par.Good (p : Par) : Prop where
  hb : 0 < p.b
  hc : 0 < p.c
  nodes : NodesOK p.gl
  ok : p.prof.OK
  mild : p.gl = none → p.prof.Mild

theorem Par.Good.b2 (h : p.Good) : 0 < p.b2 := pow_pos h.hb 2
theorem Par.Good.c2 (h : p.Good) : 0 < p.c2 := pow_pos h.hc 2

/-- The squared ellipsoidal radius at `s`. -/
noncomputable abbrev U (p : Par) (q : ℝ × ℝ × ℝ) (s : ℝ) : ℝ := u (co 1) (co p.b2) (co p.c2) q s
/-- The three kernels. -/
noncomputable def K (p : Par) (h w : ℝ → ℝ) (q : ℝ × ℝ × ℝ) : ℝ := quad p.gl fun s => h (U p q s) * w s

theorem U_pos (h : p.Good) {q : ℝ × ℝ × ℝ} (hq : 0 < N q) {s : ℝ} (hs : s ∈ Ioc (0:ℝ) 1) : 0 < U p q s :=
  u_pos (sq_co one_pos) (sq_co h.b2) (sq_co h.c2) hq hs

/-- `ψ(√v)`, `ρ(√v)`, `ρ'(√v)/√v` and `1/2` of it. -/
noncomputable def h0 (p : Par) (v : ℝ) : ℝ := p.prof.psi √v
noncomputable def h1 (p : Par) (v : ℝ) : ℝ := p.prof.mdens √v
noncomputable def h2 (p : Par) (v : ℝ) : ℝ := p.prof.mdensDeriv √v / √v
noncomputable def h2' (p : Par) (v : ℝ) : ℝ := 1 / 2 * h2 p v

theorem d_h0 (h : p.Good) {v : ℝ} (hv : 0 < v) : HasDerivAt (h0 p) (h1 p v) v := by
  have hs := sqrt_pos.2 hv
  have := (h.ok.dpsi √v hs).comp v (hasDerivAt_sqrt hv.ne')
  refine this.congr_deriv ?_
  simp only [h1]
  field_simp
theorem d_h1 (h : p.Good) {v : ℝ} (hv : 0 < v) : HasDerivAt (h1 p) (h2' p v) v := by
  have hs := sqrt_pos.2 hv
  have := (h.ok.ddens √v hs).comp v (hasDerivAt_sqrt hv.ne')
  refine this.congr_deriv ?_
  simp only [h2', h2]
  field_simp

/-- Differentiation along a curve, for both kinds of quadrature. -/
theorem K_deriv (hp : p.Good) {h h' w : ℝ → ℝ} (hd : ∀ v : ℝ, 0 < v → HasDerivAt h (h' v) v)
    (hm : p.gl = none → ∃ κ k : ℝ, 0 ≤ κ ∧ -1 < k - 2 * κ ∧ Bdd κ h ∧ Bdd (κ + 1) h' ∧ Wt k w)
    {x y z : ℝ → ℝ} {x' y' z' r : ℝ} (hx : HasDerivAt x x' r) (hy : HasDerivAt y y' r) (hz : HasDerivAt z z' r)
    (hq : 0 < N (x r, y r, z r)) :
    HasDerivAt (fun r => K p h w (x r, y r, z r))
      (2 * x r * x' * K p h' (fun s => co 1 s * w s) (x r, y r, z r)
        + 2 * y r * y' * K p h' (fun s => co p.b2 s * w s) (x r, y r, z r)
        + 2 * z r * z' * K p h' (fun s => co p.c2 s * w s) (x r, y r, z r)) r := by
  unfold K
  have hn := hp.nodes
  cases hgl : p.gl with
  | none =>
    obtain ⟨κ, k, h0, hk, b1, b2, hw⟩ := hm hgl
    exact EllInt.hasDerivAt (sq_co one_pos) (sq_co hp.b2) (sq_co hp.c2) h0 b1 b2 hd hw hk hx hy hz hq
  | some l =>
    have hl : ∀ n ∈ l, n.1 ∈ Ioc (0:ℝ) 1 := hn l hgl
    clear hgl hm
    simp only [quad]
    induction l with
    | nil => simpa using hasDerivAt_const r (0:ℝ)
    | cons n l ih =>
      have hU := U_pos hp hq (hl n (by simp))
      have du := (((hx.fun_pow 2).mul_const (co 1 n.1)).fun_add ((hy.fun_pow 2).mul_const (co p.b2 n.1))).fun_add
        ((hz.fun_pow 2).mul_const (co p.c2 n.1))
      have d1 := (((hd _ hU).comp r du).mul_const (w n.1)).const_mul n.2
      simp only [List.map_cons, List.sum_cons]
      refine (d1.fun_add (ih fun n hn => hl n (by simp [hn]))).congr_deriv ?_
      push_cast
      ring

section cart
variable (p)
noncomputable def fx (x y z : ℝ) : ℝ := 4 * π * p.b * p.c * (x * K p (h1 p) (fun s => co 1 s * om p.b2 p.c2 s) (x, y, z))
noncomputable def fy (x y z : ℝ) : ℝ := 4 * π * p.b * p.c * (y * K p (h1 p) (fun s => co p.b2 s * om p.b2 p.c2 s) (x, y, z))
noncomputable def fz (x y z : ℝ) : ℝ := 4 * π * p.b * p.c * (z * K p (h1 p) (fun s => co p.c2 s * om p.b2 p.c2 s) (x, y, z))
/-- The second-order kernel. -/
noncomputable def J (β γ : ℝ) (x y z : ℝ) : ℝ := K p (h2 p) (fun s => co β s * (co γ s * om p.b2 p.c2 s)) (x, y, z)
/-- The first-order kernel. -/
noncomputable def I (β : ℝ) (x y z : ℝ) : ℝ := K p (h1 p) (fun s => co β s * om p.b2 p.c2 s) (x, y, z)
noncomputable def fxx (x y z : ℝ) : ℝ := 4 * π * p.b * p.c * (x ^ 2 * J p 1 1 x y z + I p 1 x y z)
noncomputable def fxy (x y z : ℝ) : ℝ := 4 * π * p.b * p.c * (x * y * J p 1 p.b2 x y z)
noncomputable def fxz (x y z : ℝ) : ℝ := 4 * π * p.b * p.c * (x * z * J p 1 p.c2 x y z)
noncomputable def fyy (x y z : ℝ) : ℝ := 4 * π * p.b * p.c * (y ^ 2 * J p p.b2 p.b2 x y z + I p p.b2 x y z)
noncomputable def fyz (x y z : ℝ) : ℝ := 4 * π * p.b * p.c * (y * z * J p p.b2 p.c2 x y z)
noncomputable def fzz (x y z : ℝ) : ℝ := 4 * π * p.b * p.c * (z ^ 2 * J p p.c2 p.c2 x y z + I p p.c2 x y z)
/-- The domain: off the centre. -/
def Off (x y z : ℝ) : Prop := 0 < x ^ 2 + y ^ 2 + z ^ 2
end cart

theorem J_comm (β γ x y z : ℝ) : J p β γ x y z = J p γ β x y z := by
  unfold J K
  congr 1
  funext s
  ring

theorem evaluateXyz_eq (x y z : ℝ) :
    evaluateXyz p x y z = 2 * π * p.b * p.c * K p (h0 p) (om p.b2 p.c2) (x, y, z) := by
  unfold evaluateXyz potInt K quad h0 U u co om
  cases p.gl with
  | none =>
    simp only
    congr 2
    funext s
    rw [mul_one_div, mul_one_div, mul_one_div, mul_one_div]
  | some l =>
    simp only
    congr 3
    funext n
    simp only [mul_one_div, mul_div_assoc]

private theorem dI (hp : p.Good) {β : ℝ} (hβ : 0 < β) {x y z : ℝ → ℝ} {x' y' z' r : ℝ} (hx : HasDerivAt x x' r)
    (hy : HasDerivAt y y' r) (hz : HasDerivAt z z' r) (hq : 0 < N (x r, y r, z r)) :
    HasDerivAt (fun r => I p β (x r) (y r) (z r))
      (x r * x' * J p 1 β (x r) (y r) (z r) + y r * y' * J p p.b2 β (x r) (y r) (z r)
        + z r * z' * J p p.c2 β (x r) (y r) (z r)) r := by
  have hK : ∀ w q, K p (h2' p) w q = 1 / 2 * K p (h2 p) w q := by
    intro w q
    unfold K
    rw [← quad_mul]
    congr 1
    funext s
    simp only [h2']
    ring
  have := K_deriv (w := fun s => co β s * om p.b2 p.c2 s) hp (fun v hv => d_h1 hp hv) (fun hg => ?_) hx hy hz hq
  · refine this.congr_deriv ?_
    simp only [hK, J]
    ring
  · obtain ⟨κ, k0, k1, _, b1, b2⟩ := hp.mild hg
    refine ⟨κ + 1, 2 + 0, by linarith, by linarith, b1, ?_, (sq_co hβ).wt.mul (wt_om hp.b2 hp.c2)⟩
    have e : κ + 1 + 1 = κ + 2 := by ring
    rw [e]
    refine ⟨continuousOn_const.mul b2.cont, fun V hV => ?_⟩
    obtain ⟨C, hC⟩ := b2.bound V hV
    refine ⟨1 / 2 * C, fun v hv => ?_⟩
    have := hC v hv
    simp only [h2', h2]
    rw [abs_mul, abs_of_pos (by norm_num : (0:ℝ) < 1 / 2), mul_assoc]
    gcongr

theorem cart (hp : p.Good) :
    CartC2 (evaluateXyz p) (fx p) (fy p) (fz p) (fxx p) (fxy p) (fxz p) (fyy p) (fyz p) (fzz p) Off where
  opn := by
    have c : Continuous fun q : ℝ × ℝ × ℝ => q.1 ^ 2 + q.2.1 ^ 2 + q.2.2 ^ 2 := by fun_prop
    exact isOpen_lt continuous_const c
  d0 hx hy hz hD := by
    simp only [evaluateXyz_eq]
    refine ((K_deriv hp (fun v hv => d_h0 hp hv) (fun hg => ?_) hx hy hz hD).const_mul _).congr_deriv ?_
    · obtain ⟨κ, k0, k1, b0, b1, _⟩ := hp.mild hg
      exact ⟨κ, 0, k0, by linarith, b0, b1, wt_om hp.b2 hp.c2⟩
    · simp only [fx, fy, fz]
      ring
  dx hx hy hz hD := by
    refine ((hx.fun_mul (dI hp one_pos hx hy hz hD)).const_mul (4 * π * p.b * p.c)).congr_deriv ?_
    simp only [fxx, fxy, fxz, J_comm p.b2 1, J_comm p.c2 1]
    ring
  dy hx hy hz hD := by
    refine ((hy.fun_mul (dI hp hp.b2 hx hy hz hD)).const_mul (4 * π * p.b * p.c)).congr_deriv ?_
    simp only [fyy, fxy, fyz, J_comm p.c2 p.b2]
    ring
  dz hx hy hz hD := by
    refine ((hz.fun_mul (dI hp hp.c2 hx hy hz hD)).const_mul (4 * π * p.b * p.c)).congr_deriv ?_
    simp only [fzz, fxz, fyz]
    ring

/-! ### The integrals of the code -/

theorem forceIntAll_eq (x y z : ℝ) :
    forceIntAll p x y z = (x * I p 1 x y z, y * I p p.b2 x y z, z * I p p.c2 x y z) := by
  unfold forceIntAll I K
  cases hgl : p.gl with
  | none =>
    simp only [quad, forceInt, ind, Prod.mk.injEq]
    refine ⟨?_, ?_, ?_⟩ <;> rw [← intervalIntegral.integral_const_mul] <;> congr 1 <;> funext s <;>
      simp [h1, U, u, co, om, div_eq_mul_inv] <;> ring
  | some l =>
    simp only [quad, Prod.mk.injEq]
    refine ⟨?_, ?_, ?_⟩ <;> rw [← List.sum_map_mul_left] <;> congr 2 <;> funext n <;>
      simp [h1, U, u, co, om, div_eq_mul_inv] <;> ring

/-- Integrability of the kernels of the second derivatives. -/
theorem qint_h1 (hp : p.Good) {β : ℝ} (hβ : 0 < β) {q : ℝ × ℝ × ℝ} (hq : 0 < N q) :
    QInt p.gl fun s => h1 p (U p q s) * (co β s * om p.b2 p.c2 s) := by
  intro hg
  obtain ⟨κ, k0, k1, _, b1, _⟩ := hp.mild hg
  exact EllInt.integrable (sq_co one_pos) (sq_co hp.b2) (sq_co hp.c2) (by linarith : 0 ≤ κ + 1) b1
    ((sq_co hβ).wt.mul (wt_om hp.b2 hp.c2)) (by linarith) hq
theorem qint_h2 (hp : p.Good) {β γ : ℝ} (hβ : 0 < β) (hγ : 0 < γ) {q : ℝ × ℝ × ℝ} (hq : 0 < N q) :
    QInt p.gl fun s => h2 p (U p q s) * (co β s * (co γ s * om p.b2 p.c2 s)) := by
  intro hg
  obtain ⟨κ, k0, k1, _, _, b2⟩ := hp.mild hg
  exact EllInt.integrable (sq_co one_pos) (sq_co hp.b2) (sq_co hp.c2) (by linarith : 0 ≤ κ + 2) b2
    ((sq_co hβ).wt.mul ((sq_co hγ).wt.mul (wt_om hp.b2 hp.c2))) (by linarith) hq

theorem hessIntAll_eq (hp : p.Good) {x y z : ℝ} (hq : Off x y z) :
    hessIntAll p x y z = ⟨x ^ 2 * J p 1 1 x y z + I p 1 x y z, x * y * J p 1 p.b2 x y z, x * z * J p 1 p.c2 x y z,
      y ^ 2 * J p p.b2 p.b2 x y z + I p p.b2 x y z, y * z * J p p.b2 p.c2 x y z,
      z ^ 2 * J p p.c2 p.c2 x y z + I p p.c2 x y z⟩ := by
  have diag : ∀ β w : ℝ, 0 < β → w ^ 2 * J p β β x y z + I p β x y z
      = quad p.gl fun s => w ^ 2 * (h2 p (U p (x, y, z) s) * (co β s * (co β s * om p.b2 p.c2 s)))
        + h1 p (U p (x, y, z) s) * (co β s * om p.b2 p.c2 s) := by
    intro β w hβ
    rw [quad_add (fun hg => ((qint_h2 hp hβ hβ (q := (x, y, z)) hq) hg).const_mul _) (qint_h1 hp hβ (q := (x, y, z)) hq), quad_mul]
    rfl
  have off : ∀ β γ w : ℝ, w * J p β γ x y z
      = quad p.gl fun s => w * (h2 p (U p (x, y, z) s) * (co β s * (co γ s * om p.b2 p.c2 s))) := by
    intro β γ w
    rw [quad_mul]
    rfl
  rw [diag 1 x one_pos, diag p.b2 y hp.b2, diag p.c2 z hp.c2, off, off, off]
  unfold hessIntAll
  cases hgl : p.gl with
  | none =>
    simp only [quad, hessInt, ind, Hess.mk.injEq]
    refine ⟨?_, ?_, ?_, ?_, ?_, ?_⟩ <;> congr 1 <;> funext s <;>
      simp [h1, h2, U, u, co, om, div_eq_mul_inv] <;> ring
  | some l =>
    simp only [quad, Hess.mk.injEq]
    refine ⟨?_, ?_, ?_, ?_, ?_, ?_⟩ <;> congr 2 <;> funext n <;>
      simp [h1, h2, U, u, co, om, div_eq_mul_inv] <;> ring

end Verif.Ellipsoidal
