import Verif.Lemmas.Pot.MovingObject
import Verif.Lemmas.Pot.Plummer

set_option autoImplicit false

/-!
# C01, C02, C03, C51, C80: the potential of a moving object

The object's own potential (the kernel) is any axisymmetric potential whose methods are consistent on an open domain; its orbit
is any function of time.
-/

noncomputable section
namespace Verif
open Real MovingObject

namespace C80Spec
/-- The object is not on the vertical line through the field point. -/
def Apart (o : Orb) (R φ t : ℝ) : Prop :=
  ¬(R * cos φ = o.R t * cos (o.phi t) ∧ R * sin φ = o.R t * sin (o.phi t))
/-- Horizontal distance from the object. -/
def dist (o : Orb) (R φ t : ℝ) : ℝ :=
  √((R * cos φ - o.R t * cos (o.phi t)) ^ 2 + (R * sin φ - o.R t * sin (o.phi t)) ^ 2)
/-- The values of the potential do not depend on the azimuth. -/
def Axisymmetric (K : Pot) : Prop := ∀ R z φ t, K.val R z φ t = K.val R z 0 t
/-- The values and the density are symmetric about the plane, the forces accordingly. -/
structure EvenZ (K : Pot) : Prop where
  val : ∀ R z φ t, K.val R (-z) φ t = K.val R z φ t
  Rforce : ∀ R z φ t, K.Rforce R (-z) φ t = K.Rforce R z φ t
  zforce : ∀ R z φ t, K.zforce R (-z) φ t = -K.zforce R z φ t
  dens : ∀ R z φ t, K.dens R (-z) φ t = K.dens R z φ t
/-- `t` moved to the nearer end of the interval between `t0` and `tf` if outside. -/
def clampT (t0 tf t : ℝ) : ℝ := max (min t0 tf) (min (max t0 tf) t)
/-- The orbit, standing still outside the interval between `t0` and `tf`. -/
def hold (o : Orb) (t0 tf : ℝ) : Orb :=
  ⟨fun t => o.R (clampT t0 tf t), fun t => o.phi (clampT t0 tf t), fun t => o.z (clampT t0 tf t), true⟩
/-- The splines pass through the orbit between `t0` and `tf` (time rescaled to `[0, 1]`). -/
structure Follows (a : CArgs) (o : Orb) : Prop where
  ne : a.t0 ≠ a.tf
  x : ∀ s ∈ Set.Icc (min a.t0 a.tf) (max a.t0 a.tf), a.sx ((s - a.t0) / (a.tf - a.t0)) = o.R s * cos (o.phi s)
  y : ∀ s ∈ Set.Icc (min a.t0 a.tf) (max a.t0 a.tf), a.sy ((s - a.t0) / (a.tf - a.t0)) = o.R s * sin (o.phi s)
  z : ∀ s ∈ Set.Icc (min a.t0 a.tf) (max a.t0 a.tf), a.sz ((s - a.t0) / (a.tf - a.t0)) = o.z s
/-- The C functions of the kernel compute its Python methods, whatever azimuth they are given. -/
structure Agrees (k : CKernel) (K : Pot) : Prop where
  Rforce : ∀ R z φ t, k.Rforce R z φ t = K.Rforce R z 0 t
  zforce : ∀ R z φ t, k.zforce R z φ t = K.zforce R z 0 t
  R2deriv : ∀ R z φ t, k.R2deriv R z φ t = K.R2deriv R z 0 t
  Rzderiv : ∀ R z φ t, k.Rzderiv R z φ t = K.Rzderiv R z 0 t
  z2deriv : ∀ R z φ t, k.z2deriv R z φ t = K.z2deriv R z 0 t
  planarRforce : ∀ R φ t, k.planarRforce R φ t = K.Rforce R 0 0 t
  planarR2deriv : ∀ R φ t, k.planarR2deriv R φ t = K.R2deriv R 0 0 t
end C80Spec
open C80Spec

namespace C80aux
theorem dist_eq (o : Orb) (R φ t : ℝ) : dist o R φ t = cylR R φ (o.R t) (o.phi t) := (cylR_dist ..).symm

/-- The default kernel, PlummerPotential(amp=0.06, b=0.01) (MovingObjectPotential.py:56). -/
def defaultK : Pot := (Plummer.pot (1 / 100)).scale (6 / 100)
theorem defaultK_open : AxisOpen (fun R z (_ : ℝ) => 0 < R ^ 2 + z ^ 2 + (1 / 100 : ℝ) ^ 2) := by
  refine ⟨fun R z φ _ => ?_, fun R z φ _ => ?_, fun R z φ _ => ?_⟩ <;>
    exact Filter.Eventually.of_forall fun x => by positivity
theorem defaultK_cons : Consistent defaultK (fun R z _ => 0 < R ^ 2 + z ^ 2 + (1 / 100 : ℝ) ^ 2) :=
  (Plummer.consistent (1 / 100)).scale (6 / 100)
/-- An object on the circle of radius 1 with unit angular speed, at height 1. -/
def circ : Orb := ⟨fun _ => 1, fun t => t, fun _ => 1, true⟩
theorem circ_apart : Apart circ 2 0 0 := by
  rintro ⟨h, -⟩
  simp [circ] at h
end C80aux

/-- Forces of a moving object are minus the gradient of its potential at each instant. -/
theorem C01_MovingObject {K : Pot} {D : ℝ → ℝ → ℝ → Prop} (c : Consistent K D) (o : Orb) (amp : ℝ) {R z φ t : ℝ}
    (ha : Apart o R φ t) (hd : D (dist o R φ t) (o.z t - z) 0) : GradAt ((pot K o).scale amp) R z φ t :=
  (grad (cylR_ne ha) (c.grad _ _ _ _ (C80aux.dist_eq o R φ t ▸ hd))).scale amp
example : GradAt ((pot C80aux.defaultK C80aux.circ).scale 3) 2 0 0 0 :=
  C01_MovingObject C80aux.defaultK_cons _ _ C80aux.circ_apart (by positivity)

/-- Second derivatives of a moving object. -/
theorem C02_MovingObject {K : Pot} {D : ℝ → ℝ → ℝ → Prop} (c : Consistent K D) (op : AxisOpen D) (o : Orb) (amp : ℝ)
    {R z φ t : ℝ} (ha : Apart o R φ t) (hd : D (dist o R φ t) (o.z t - z) 0) : HessAt ((pot K o).scale amp) R z φ t :=
  (hess op c (cylR_ne ha) (C80aux.dist_eq o R φ t ▸ hd)).scale amp
example : HessAt ((pot C80aux.defaultK C80aux.circ).scale 3) 2 0 0 0 :=
  C02_MovingObject C80aux.defaultK_cons C80aux.defaultK_open _ _ C80aux.circ_apart (by positivity)

/-- Density of a moving object. -/
theorem C03_MovingObject {K : Pot} {D : ℝ → ℝ → ℝ → Prop} (c : Consistent K D) (op : AxisOpen D) (hax : Axisymmetric K)
    (o : Orb) (amp : ℝ) {R z φ t : ℝ} (hR : R ≠ 0) (ha : Apart o R φ t) (hd : D (dist o R φ t) (o.z t - z) 0) :
    PoissonAt ((pot K o).scale amp) R z φ t := by
  have hr := cylR_ne ha
  have hd' : D (cylR R φ (o.R t) (o.phi t)) (o.z t - z) 0 := C80aux.dist_eq o R φ t ▸ hd
  have hh := c.hess _ _ _ t hd'
  refine PoissonAt.scale amp ((poissonAt_iff (grad hr (c.grad _ _ _ _ hd')) (hess op c hr hd')).2 ?_)
  exact poisson hR hr (kernel_pp hax hh) ((poissonAt_iff (c.grad _ _ _ t hd') hh).1 (c.poisson _ _ _ t hd' hr))
example : PoissonAt ((pot C80aux.defaultK C80aux.circ).scale 3) 2 0 0 0 :=
  C03_MovingObject C80aux.defaultK_cons C80aux.defaultK_open (fun _ _ _ _ => rfl) _ _ two_ne_zero C80aux.circ_apart
    (by positivity)

/-- The potential, force (in Cartesian components) and density at displacement `(r cos ψ, r sin ψ, ζ)` from the object are those
of the kernel at that displacement from its centre, for kernels symmetric about their plane. -/
theorem C80_MovingObject_centred {K : Pot} (ev : EvenZ K) (o : Orb) {R z φ t r ψ ζ : ℝ} (hR : R ≠ 0) (hr : 0 < r)
    (hx : R * cos φ = o.R t * cos (o.phi t) + r * cos ψ) (hy : R * sin φ = o.R t * sin (o.phi t) + r * sin ψ)
    (hz : z = o.z t + ζ) :
    (pot K o).val R z φ t = K.val r ζ 0 t ∧
    (pot K o).dens R z φ t = K.dens r ζ 0 t ∧
    cos φ * (pot K o).Rforce R z φ t - sin φ * ((pot K o).phitorque R z φ t / R) = K.Rforce r ζ 0 t * cos ψ ∧
    sin φ * (pot K o).Rforce R z φ t + cos φ * ((pot K o).phitorque R z φ t / R) = K.Rforce r ζ 0 t * sin ψ ∧
    (pot K o).zforce R z φ t = K.zforce r ζ 0 t := by
  have hd : cylR R φ (o.R t) (o.phi t) = r := by
    rw [cylR_dist, hx, hy]
    have : (o.R t * cos (o.phi t) + r * cos ψ - o.R t * cos (o.phi t)) ^ 2
        + (o.R t * sin (o.phi t) + r * sin ψ - o.R t * sin (o.phi t)) ^ 2 = r ^ 2 := by
      linear_combination r ^ 2 * sin_sq_add_cos_sq ψ
    rw [this, Real.sqrt_sq hr.le]
  have hzz : o.z t - z = -ζ := by linarith
  have ex : dx (o.R t) (o.phi t) R φ = -(r * cos ψ) := by unfold dx; linarith
  have ey : dy (o.R t) (o.phi t) R φ = -(r * sin ψ) := by unfold dy; linarith
  have hs := sin_sq_add_cos_sq φ
  refine ⟨?_, ?_, ?_, ?_, ?_⟩
  · change evaluate K o R z φ t = _
    unfold evaluate; rw [hd, hzz, ev.val]
  · change dens K o R z φ t = _
    unfold dens; rw [hd, hzz, ev.dens]
  · change cos φ * Rforce K o R z φ t - sin φ * (phitorque K o R z φ t / R) = _
    unfold Rforce phitorque
    simp only [hd, hzz, ex, ey, ev.Rforce]
    generalize K.Rforce r ζ 0 t = F
    field_simp
    linear_combination (F * cos ψ) * hs
  · change sin φ * Rforce K o R z φ t + cos φ * (phitorque K o R z φ t / R) = _
    unfold Rforce phitorque
    simp only [hd, hzz, ex, ey, ev.Rforce]
    generalize K.Rforce r ζ 0 t = F
    field_simp
    linear_combination (F * sin ψ) * hs
  · change zforce K o R z φ t = _
    unfold zforce; rw [hd, hzz, ev.zforce, neg_neg]
theorem C80aux.defaultK_even : EvenZ C80aux.defaultK where
  val := fun R z _ _ => by
    simp only [C80aux.defaultK, Pot.scale, Plummer.pot, Pot.axi, Plummer.evaluate, neg_sq]
  Rforce := fun R z _ _ => by
    simp only [C80aux.defaultK, Pot.scale, Plummer.pot, Pot.axi, Plummer.Rforce, neg_sq]
  zforce := fun R z _ _ => by
    simp only [C80aux.defaultK, Pot.scale, Plummer.pot, Pot.axi, Plummer.zforce, neg_sq]; ring
  dens := fun R z _ _ => by
    simp only [C80aux.defaultK, Pot.scale, Plummer.pot, Pot.axi, Plummer.dens, neg_sq]
example : (pot C80aux.defaultK C80aux.circ).val 2 0 0 0 = C80aux.defaultK.val 1 (-1) 0 0 :=
  (C80_MovingObject_centred C80aux.defaultK_even C80aux.circ (r := 1) (ψ := 0) two_ne_zero one_pos
    (by norm_num [C80aux.circ]) (by norm_num [C80aux.circ]) (by norm_num [C80aux.circ, Orb.z])).1

namespace C80aux
theorem clampT_mem (t0 tf t : ℝ) : clampT t0 tf t ∈ Set.Icc (min t0 tf) (max t0 tf) :=
  ⟨le_max_left _ _, max_le (min_le_max) (min_le_left _ _)⟩

theorem constrain_eq (t0 tf t : ℝ) (h : t0 ≠ tf) :
    constrain ((t - t0) / (tf - t0)) = (clampT t0 tf t - t0) / (tf - t0) := by
  unfold constrain clampT
  dsimp only
  rcases lt_or_gt_of_ne h with k | k
  · have kp : 0 < tf - t0 := by linarith
    rw [min_eq_left k.le, max_eq_right k.le]
    by_cases h1 : (t - t0) / (tf - t0) < 0
    · have : t < t0 := by
        rcases lt_or_ge t t0 with e | e
        · exact e
        · exact absurd h1 (not_lt.2 (div_nonneg (by linarith) kp.le))
      rw [if_pos h1, if_neg (by norm_num), min_eq_right (by linarith), max_eq_left this.le]; simp
    · rw [if_neg h1]
      have ht : t0 ≤ t := by
        by_contra e
        exact h1 (div_neg_of_neg_of_pos (by linarith) kp)
      by_cases h2 : (t - t0) / (tf - t0) > 1
      · rw [if_pos h2]
        rw [gt_iff_lt, one_lt_div kp] at h2
        rw [min_eq_left (by linarith), max_eq_right k.le, div_self kp.ne']
      · rw [if_neg h2]
        rw [gt_iff_lt, one_lt_div kp, not_lt] at h2
        rw [min_eq_right (by linarith), max_eq_right ht]
  · have kp : tf - t0 < 0 := by linarith
    rw [min_eq_right k.le, max_eq_left k.le]
    by_cases h1 : (t - t0) / (tf - t0) < 0
    · have : t0 < t := by
        rcases lt_or_ge t0 t with e | e
        · exact e
        · exact absurd h1 (not_lt.2 (div_nonneg_of_nonpos (by linarith) kp.le))
      rw [if_pos h1, if_neg (by norm_num), min_eq_left this.le, max_eq_right k.le]; simp
    · rw [if_neg h1]
      have ht : t ≤ t0 := by
        by_contra e
        exact h1 (div_neg_of_pos_of_neg (by linarith) kp)
      rw [min_eq_right ht]
      by_cases h2 : (t - t0) / (tf - t0) > 1
      · rw [if_pos h2]
        rw [gt_iff_lt, one_lt_div_of_neg kp] at h2
        rw [max_eq_left (by linarith), div_self kp.ne]
      · rw [if_neg h2]
        rw [gt_iff_lt, one_lt_div_of_neg kp, not_lt] at h2
        rw [max_eq_right (by linarith)]

variable {a : CArgs} {o : Orb} (f : Follows a o) (t : ℝ)
include f
theorem sx_eq : a.sx (dInd a t) = (hold o a.t0 a.tf).R t * cos ((hold o a.t0 a.tf).phi t) := by
  unfold dInd; rw [constrain_eq _ _ _ f.ne, f.x _ (clampT_mem ..)]; rfl
theorem sy_eq : a.sy (dInd a t) = (hold o a.t0 a.tf).R t * sin ((hold o a.t0 a.tf).phi t) := by
  unfold dInd; rw [constrain_eq _ _ _ f.ne, f.y _ (clampT_mem ..)]; rfl
theorem sz_eq : a.sz (dInd a t) = (hold o a.t0 a.tf).z t := by
  unfold dInd; rw [constrain_eq _ _ _ f.ne, f.z _ (clampT_mem ..)]; rfl
theorem cRdist_eq (R φ : ℝ) :
    cRdist a R φ t = cylR R φ ((hold o a.t0 a.tf).R t) ((hold o a.t0 a.tf).phi t) := by
  unfold cRdist; rw [sx_eq f, sy_eq f, cylR_dist]
theorem rdist2 (R φ : ℝ) :
    √((a.sx (dInd a t) - R * cos φ) * (a.sx (dInd a t) - R * cos φ)
        + (a.sy (dInd a t) - R * sin φ) * (a.sy (dInd a t) - R * sin φ))
      = cylR R φ ((hold o a.t0 a.tf).R t) ((hold o a.t0 a.tf).phi t) := by
  rw [sx_eq f, sy_eq f, cylR_dist]; congr 1; ring
theorem hess_eq {k : CKernel} {K : Pot} (g : Agrees k K) (R z φ : ℝ) :
    cxyzHess k a R z φ t =
      ⟨a.amp * (xyzHess K (hold o a.t0 a.tf) R z φ t).x, a.amp * (xyzHess K (hold o a.t0 a.tf) R z φ t).y,
        a.amp * (xyzHess K (hold o a.t0 a.tf) R z φ t).xx, a.amp * (xyzHess K (hold o a.t0 a.tf) R z φ t).xy,
        a.amp * (xyzHess K (hold o a.t0 a.tf) R z φ t).yy, a.amp * (xyzHess K (hold o a.t0 a.tf) R z φ t).xz,
        a.amp * (xyzHess K (hold o a.t0 a.tf) R z φ t).yz, a.amp * (xyzHess K (hold o a.t0 a.tf) R z φ t).zz⟩ := by
  unfold cxyzHess xyzHess
  simp only [rdist2 f, g.Rforce, g.R2deriv, g.Rzderiv, g.z2deriv]
  simp only [sx_eq f, sy_eq f, sz_eq f]
  unfold dx dy
  congr 1 <;> ring
theorem phess_eq {k : CKernel} {K : Pot} (g : Agrees k K) (hz : (hold o a.t0 a.tf).z t = 0) (R φ : ℝ) :
    cPlanarHess k a R φ t =
      ⟨a.amp * (xyzHess K (hold o a.t0 a.tf) R 0 φ t).x, a.amp * (xyzHess K (hold o a.t0 a.tf) R 0 φ t).y,
        a.amp * (xyzHess K (hold o a.t0 a.tf) R 0 φ t).xx, a.amp * (xyzHess K (hold o a.t0 a.tf) R 0 φ t).xy,
        a.amp * (xyzHess K (hold o a.t0 a.tf) R 0 φ t).yy, 0, 0, 0⟩ := by
  unfold cPlanarHess xyzHess
  simp only [rdist2 f, g.planarRforce, g.planarR2deriv, hz, sub_zero]
  simp only [sx_eq f, sy_eq f]
  unfold dx dy
  congr 1 <;> ring
end C80aux

/-- Moving object: the C functions compute the Python methods for an object that follows its orbit between the first and last
stored times and stands still at the nearer end outside (where the Python orbit raises an exception). -/
theorem C51_MovingObject {k : CKernel} {K : Pot} (g : Agrees k K) {a : CArgs} {o : Orb} (f : Follows a o) (R z φ t : ℝ) :
    let P := (pot K (hold o a.t0 a.tf)).scale a.amp
    cRforce k a R z φ t = P.Rforce R z φ t ∧
    czforce k a R z φ t = P.zforce R z φ t ∧
    cphitorque k a R z φ t = P.phitorque R z φ t ∧
    cR2deriv k a R z φ t = P.R2deriv R z φ t ∧
    cz2deriv k a R z φ t = P.z2deriv R z φ t ∧
    cRzderiv k a R z φ t = P.Rzderiv R z φ t ∧
    cphi2deriv k a R z φ t = P.phi2deriv R z φ t ∧
    cRphideriv k a R z φ t = P.Rphideriv R z φ t ∧
    czphideriv k a R z φ t = P.phizderiv R z φ t := by
  refine ⟨?_, ?_, ?_, ?_, ?_, ?_, ?_, ?_, ?_⟩
  · change _ = a.amp * Rforce K _ R z φ t
    unfold cRforce Rforce
    simp only [C80aux.cRdist_eq f, g.Rforce]
    simp only [C80aux.sx_eq f, C80aux.sy_eq f, C80aux.sz_eq f]
    unfold dx dy; ring
  · change _ = a.amp * zforce K _ R z φ t
    unfold czforce zforce
    simp only [C80aux.cRdist_eq f, g.zforce, C80aux.sz_eq f]
    ring
  · change _ = a.amp * phitorque K _ R z φ t
    unfold cphitorque phitorque
    simp only [C80aux.cRdist_eq f, g.Rforce]
    simp only [C80aux.sx_eq f, C80aux.sy_eq f, C80aux.sz_eq f]
    unfold dx dy; ring
  · change _ = a.amp * R2deriv K _ R z φ t
    unfold cR2deriv R2deriv Hess.R2; rw [C80aux.hess_eq f t g]; ring
  · change _ = a.amp * z2deriv K _ R z φ t
    unfold cz2deriv z2deriv; rw [C80aux.hess_eq f t g]
  · change _ = a.amp * Rzderiv K _ R z φ t
    unfold cRzderiv Rzderiv Hess.Rz; rw [C80aux.hess_eq f t g]; ring
  · change _ = a.amp * phi2deriv K _ R z φ t
    unfold cphi2deriv phi2deriv Hess.p2; rw [C80aux.hess_eq f t g]; ring
  · change _ = a.amp * Rphideriv K _ R z φ t
    unfold cRphideriv Rphideriv Hess.Rp; rw [C80aux.hess_eq f t g]; ring
  · change _ = a.amp * phizderiv K _ R z φ t
    unfold czphideriv phizderiv Hess.pz; rw [C80aux.hess_eq f t g]; ring

/-- Between the first and last stored times (in either order) the object of `C51_MovingObject` is where its orbit is. -/
theorem C51_MovingObject_inside (K : Pot) (o : Orb) {t0 tf t : ℝ} (h : t ∈ Set.Icc (min t0 tf) (max t0 tf)) (R z φ : ℝ) :
    (pot K (hold o t0 tf)).Rforce R z φ t = (pot K o).Rforce R z φ t ∧
    (pot K (hold o t0 tf)).zforce R z φ t = (pot K o).zforce R z φ t ∧
    (pot K (hold o t0 tf)).phitorque R z φ t = (pot K o).phitorque R z φ t ∧
    (pot K (hold o t0 tf)).R2deriv R z φ t = (pot K o).R2deriv R z φ t ∧
    (pot K (hold o t0 tf)).z2deriv R z φ t = (pot K o).z2deriv R z φ t ∧
    (pot K (hold o t0 tf)).Rzderiv R z φ t = (pot K o).Rzderiv R z φ t ∧
    (pot K (hold o t0 tf)).phi2deriv R z φ t = (pot K o).phi2deriv R z φ t ∧
    (pot K (hold o t0 tf)).Rphideriv R z φ t = (pot K o).Rphideriv R z φ t ∧
    (pot K (hold o t0 tf)).phizderiv R z φ t = (pot K o).phizderiv R z φ t := by
  have e : clampT t0 tf t = t := by
    unfold clampT; rw [min_eq_right h.2, max_eq_right h.1]
  have eR : (hold o t0 tf).R t = o.R t := by simp only [hold, e]
  have ep : (hold o t0 tf).phi t = o.phi t := by simp only [hold, e]
  have ez : (hold o t0 tf).z t = o.z t := by
    change (if true = true then o.z (clampT t0 tf t) else 0) = _
    rw [if_pos rfl, e]
  refine ⟨?_, ?_, ?_, ?_, ?_, ?_, ?_, ?_, ?_⟩ <;>
    simp only [pot, Rforce, zforce, phitorque, R2deriv, z2deriv, Rzderiv, phi2deriv, Rphideriv, phizderiv, xyzHess,
      eR, ep, ez]

namespace C80aux
/-- C functions for the default kernel. -/
def defaultC : CKernel where
  Rforce := fun R z _ _ => Plummer.cRforce (6 / 100) (1 / 100) R z
  zforce := fun R z _ _ => Plummer.czforce (6 / 100) (1 / 100) R z
  R2deriv := fun R z _ _ => Plummer.cR2deriv (6 / 100) (1 / 100) R z
  Rzderiv := fun R z _ _ => Plummer.cRzderiv (6 / 100) (1 / 100) R z
  z2deriv := fun R z _ _ => Plummer.cz2deriv (6 / 100) (1 / 100) R z
  planarRforce := fun R _ _ => Plummer.cPlanarRforce (6 / 100) (1 / 100) R
  planarR2deriv := fun R _ _ => Plummer.cPlanarR2deriv (6 / 100) (1 / 100) R
theorem default_agrees : Agrees defaultC defaultK where
  Rforce := fun R z _ _ => Plummer.cRforce_eq ..
  zforce := fun R z _ _ => Plummer.czforce_eq ..
  R2deriv := fun R z _ _ => Plummer.cR2deriv_eq ..
  Rzderiv := fun R z _ _ => Plummer.cRzderiv_eq ..
  z2deriv := fun R z _ _ => Plummer.cz2deriv_eq ..
  planarRforce := fun R _ _ => Plummer.cPlanarRforce_eq ..
  planarR2deriv := fun R _ _ => Plummer.cPlanarR2deriv_eq ..
/-- The object of `circ` or in the plane, followed for times from 0 to 1. -/
def circC (h : ℝ) : CArgs := ⟨fun d => cos d, fun d => sin d, fun _ => h, 1, 0, 1⟩
theorem circ_follows : Follows (circC 1) circ where
  ne := by norm_num [circC]
  x := fun s _ => by simp [circC, circ]
  y := fun s _ => by simp [circC, circ]
  z := fun s _ => by simp [circC, circ, Orb.z]
/-- The same circle in the plane. -/
def circ0 : Orb := ⟨fun _ => 1, fun t => t, fun _ => 0, true⟩
theorem circ0_follows : Follows (circC 0) circ0 where
  ne := by norm_num [circC]
  x := fun s _ => by simp [circC, circ0]
  y := fun s _ => by simp [circC, circ0]
  z := fun s _ => by simp [circC, circ0, Orb.z]
end C80aux

example : cRforce C80aux.defaultC (C80aux.circC 1) 2 0 0 (1 / 2)
    = ((pot C80aux.defaultK (hold C80aux.circ 0 1)).scale 1).Rforce 2 0 0 (1 / 2) :=
  (C51_MovingObject C80aux.default_agrees C80aux.circ_follows 2 0 0 (1 / 2)).1
example : (pot C80aux.defaultK (hold C80aux.circ 0 1)).Rforce 2 0 0 (1 / 2) = (pot C80aux.defaultK C80aux.circ).Rforce 2 0 0 (1 / 2) :=
  (C51_MovingObject_inside _ _ (by norm_num) 2 0 0).1

/-- Moving object, planar functions: agreement at the times at which the object is in the plane. -/
theorem C51_MovingObject_planar_partial {k : CKernel} {K : Pot} (g : Agrees k K) {a : CArgs} {o : Orb} (f : Follows a o)
    (R φ t : ℝ) (hz : (hold o a.t0 a.tf).z t = 0) :
    let P := (pot K (hold o a.t0 a.tf)).scale a.amp
    cPlanarRforce k a R φ t = P.Rforce R 0 φ t ∧
    cPlanarphitorque k a R φ t = P.phitorque R 0 φ t ∧
    cPlanarR2deriv k a R φ t = P.R2deriv R 0 φ t ∧
    cPlanarphi2deriv k a R φ t = P.phi2deriv R 0 φ t ∧
    cPlanarRphideriv k a R φ t = P.Rphideriv R 0 φ t := by
  refine ⟨?_, ?_, ?_, ?_, ?_⟩
  · change _ = a.amp * Rforce K _ R 0 φ t
    unfold cPlanarRforce Rforce
    simp only [C80aux.cRdist_eq f, g.planarRforce, hz, sub_zero]
    simp only [C80aux.sx_eq f, C80aux.sy_eq f]
    unfold dx dy; ring
  · change _ = a.amp * phitorque K _ R 0 φ t
    unfold cPlanarphitorque phitorque
    simp only [C80aux.cRdist_eq f, g.planarRforce, hz, sub_zero]
    simp only [C80aux.sx_eq f, C80aux.sy_eq f]
    unfold dx dy; ring
  · change _ = a.amp * R2deriv K _ R 0 φ t
    unfold cPlanarR2deriv R2deriv Hess.R2; rw [C80aux.phess_eq f t g hz]; ring
  · change _ = a.amp * phi2deriv K _ R 0 φ t
    unfold cPlanarphi2deriv phi2deriv Hess.p2; rw [C80aux.phess_eq f t g hz]; ring
  · change _ = a.amp * Rphideriv K _ R 0 φ t
    unfold cPlanarRphideriv Rphideriv Hess.Rp; rw [C80aux.phess_eq f t g hz]; ring
example : cPlanarRforce C80aux.defaultC (C80aux.circC 0) 2 0 (1 / 2)
    = ((pot C80aux.defaultK (hold C80aux.circ0 0 1)).scale 1).Rforce 2 0 0 (1 / 2) :=
  (C51_MovingObject_planar_partial C80aux.default_agrees C80aux.circ0_follows 2 0 (1 / 2) rfl).1

/-- The planar C functions ignore the height of the object: integrating a planar orbit in C past an object (here the default
Plummer sphere) that is not in the plane gives a different force from the Python version. -/
theorem C51_MovingObject_planar_fails :
    ∃ (a : CArgs) (o : Orb) (R φ t : ℝ), Follows a o ∧ t ∈ Set.Icc (min a.t0 a.tf) (max a.t0 a.tf) ∧ Apart o R φ t ∧
      Agrees C80aux.defaultC C80aux.defaultK ∧
      cPlanarRforce C80aux.defaultC a R φ t ≠ ((pot C80aux.defaultK o).scale a.amp).Rforce R 0 φ t := by
  refine ⟨C80aux.circC 1, C80aux.circ, 2, 0, 0, C80aux.circ_follows, by norm_num [C80aux.circC], C80aux.circ_apart,
    C80aux.default_agrees, ?_⟩
  have hd : cRdist (C80aux.circC 1) 2 0 0 = 1 := by
    unfold cRdist dInd constrain
    norm_num [C80aux.circC]
  have hc : cylR 2 0 (C80aux.circ.R 0) (C80aux.circ.phi 0) = 1 := by
    unfold cylR; norm_num [C80aux.circ]
  have hi : dInd (C80aux.circC 1) 0 = 0 := by unfold dInd constrain; norm_num [C80aux.circC]
  change _ ≠ (C80aux.circC 1).amp * Rforce C80aux.defaultK C80aux.circ 2 0 0 0
  unfold cPlanarRforce Rforce
  simp only [hd, hc, hi]
  simp only [dx, dy, C80aux.circ, C80aux.circC, Orb.z, C80aux.defaultC, C80aux.defaultK, Pot.scale, Plummer.pot, Pot.axi,
    Plummer.Rforce, Plummer.cPlanarRforce]
  norm_num
  intro e
  have h1 : ((10001 / 10000 : ℝ)) ^ (-(3 / 2) : ℝ) = ((20001 / 10000 : ℝ)) ^ (-(3 / 2) : ℝ) := by linarith
  exact absurd h1 (ne_of_gt (Real.rpow_lt_rpow_of_neg (by norm_num) (by norm_num) (by norm_num)))

end Verif
