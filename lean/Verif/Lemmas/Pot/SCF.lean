import Verif.Model.Pot.SCF
import Verif.Util.SphHarm
import Verif.Lemmas.Coords

set_option autoImplicit false

/-! # Lemmas for SCFPotential -/

noncomputable section
open Real Finset Filter Topology

namespace Verif

/-- Pointwise sum over a finite set. -/
def Pot.fsum {ι : Type} (s : Finset ι) (P : ι → Pot) : Pot where
  val := fun R z φ t => ∑ i ∈ s, (P i).val R z φ t
  Rforce := fun R z φ t => ∑ i ∈ s, (P i).Rforce R z φ t
  zforce := fun R z φ t => ∑ i ∈ s, (P i).zforce R z φ t
  phitorque := fun R z φ t => ∑ i ∈ s, (P i).phitorque R z φ t
  R2deriv := fun R z φ t => ∑ i ∈ s, (P i).R2deriv R z φ t
  z2deriv := fun R z φ t => ∑ i ∈ s, (P i).z2deriv R z φ t
  Rzderiv := fun R z φ t => ∑ i ∈ s, (P i).Rzderiv R z φ t
  phi2deriv := fun R z φ t => ∑ i ∈ s, (P i).phi2deriv R z φ t
  Rphideriv := fun R z φ t => ∑ i ∈ s, (P i).Rphideriv R z φ t
  phizderiv := fun R z φ t => ∑ i ∈ s, (P i).phizderiv R z φ t
  dens := fun R z φ t => ∑ i ∈ s, (P i).dens R z φ t

theorem Consistent.fsum {ι : Type} {D : ℝ → ℝ → ℝ → Prop} (o : AxisOpen D) (s : Finset ι) {P : ι → Pot}
    (h : ∀ i ∈ s, Consistent (P i) D) : Consistent (Pot.fsum s P) D := by
  classical
  induction s using Finset.induction_on with
  | empty =>
    have e : Pot.fsum ∅ P = Pot.zero := by simp [Pot.fsum, Pot.zero]
    rw [e]
    exact .zero o
  | insert a s ha ih =>
    have e : Pot.fsum (insert a s) P = (P a).add (Pot.fsum s P) := by
      simp only [Pot.fsum, Pot.add, Finset.sum_insert ha]
    rw [e]
    exact (h a (by simp)).add o (ih fun i hi => h i (by simp [hi]))

/-- Consistency of a record whose methods agree with those of a consistent one on an open domain. -/
theorem Consistent.congr_on {P Q : Pot} {D : ℝ → ℝ → ℝ → Prop} (o : AxisOpen D) (c : Consistent Q D)
    (hv : ∀ R z φ t, D R z φ → P.val R z φ t = Q.val R z φ t)
    (hR : ∀ R z φ t, D R z φ → P.Rforce R z φ t = Q.Rforce R z φ t)
    (hz : ∀ R z φ t, D R z φ → P.zforce R z φ t = Q.zforce R z φ t)
    (hp : ∀ R z φ t, D R z φ → P.phitorque R z φ t = Q.phitorque R z φ t)
    (hRR : ∀ R z φ t, D R z φ → P.R2deriv R z φ t = Q.R2deriv R z φ t)
    (hzz : ∀ R z φ t, D R z φ → P.z2deriv R z φ t = Q.z2deriv R z φ t)
    (hRz : ∀ R z φ t, D R z φ → P.Rzderiv R z φ t = Q.Rzderiv R z φ t)
    (hpp : ∀ R z φ t, D R z φ → P.phi2deriv R z φ t = Q.phi2deriv R z φ t)
    (hRp : ∀ R z φ t, D R z φ → P.Rphideriv R z φ t = Q.Rphideriv R z φ t)
    (hzp : ∀ R z φ t, D R z φ → P.phizderiv R z φ t = Q.phizderiv R z φ t)
    (hd : ∀ R z φ t, D R z φ → P.dens R z φ t = Q.dens R z φ t) : Consistent P D := by
  refine .of_force o ?_ ?_ ?_
  · intro R z φ t h
    have g := c.grad R z φ t h
    constructor
    · rw [hR _ _ _ _ h]
      exact g.dR.congr_of_eventuallyEq ((o.oR _ _ _ h).mono fun x k => hv _ _ _ _ k)
    · rw [hz _ _ _ _ h]
      exact g.dz.congr_of_eventuallyEq ((o.oz _ _ _ h).mono fun x k => hv _ _ _ _ k)
    · rw [hp _ _ _ _ h]
      exact g.dphi.congr_of_eventuallyEq ((o.op _ _ _ h).mono fun x k => hv _ _ _ _ k)
  · intro R z φ t h
    have a := ForceHess.of_hess (c.near o t h) (c.hess _ _ _ _ h)
    constructor
    · rw [hRR _ _ _ _ h]; exact a.RR.congr_of_eventuallyEq ((o.oR _ _ _ h).mono fun x k => hR _ _ _ _ k)
    · rw [hRz _ _ _ _ h]; exact a.Rz.congr_of_eventuallyEq ((o.oz _ _ _ h).mono fun x k => hR _ _ _ _ k)
    · rw [hRp _ _ _ _ h]; exact a.Rp.congr_of_eventuallyEq ((o.op _ _ _ h).mono fun x k => hR _ _ _ _ k)
    · rw [hRz _ _ _ _ h]; exact a.zR.congr_of_eventuallyEq ((o.oR _ _ _ h).mono fun x k => hz _ _ _ _ k)
    · rw [hzz _ _ _ _ h]; exact a.zz.congr_of_eventuallyEq ((o.oz _ _ _ h).mono fun x k => hz _ _ _ _ k)
    · rw [hzp _ _ _ _ h]; exact a.zp.congr_of_eventuallyEq ((o.op _ _ _ h).mono fun x k => hz _ _ _ _ k)
    · rw [hRp _ _ _ _ h]; exact a.pR.congr_of_eventuallyEq ((o.oR _ _ _ h).mono fun x k => hp _ _ _ _ k)
    · rw [hzp _ _ _ _ h]; exact a.pz.congr_of_eventuallyEq ((o.oz _ _ _ h).mono fun x k => hp _ _ _ _ k)
    · rw [hpp _ _ _ _ h]; exact a.pp.congr_of_eventuallyEq ((o.op _ _ _ h).mono fun x k => hp _ _ _ _ k)
  · intro R z φ t h k
    have q := (poissonAt_iff (c.grad _ _ _ t h) (c.hess _ _ _ t h)).1 (c.poisson _ _ _ t h k)
    simp only [PoissonAlg] at *
    rw [hd _ _ _ _ h, hRR _ _ _ _ h, hR _ _ _ _ h, hpp _ _ _ _ h, hzz _ _ _ _ h]
    exact q

/-- Second derivatives of a record with the same value and equal second derivatives at the point. -/
theorem HessAt.congr {P Q : Pot} {R z φ t : ℝ} (h : HessAt Q R z φ t) (hv : P.val = Q.val)
    (hRR : P.R2deriv R z φ t = Q.R2deriv R z φ t) (hzz : P.z2deriv R z φ t = Q.z2deriv R z φ t)
    (hRz : P.Rzderiv R z φ t = Q.Rzderiv R z φ t) (hpp : P.phi2deriv R z φ t = Q.phi2deriv R z φ t)
    (hRp : P.Rphideriv R z φ t = Q.Rphideriv R z φ t) (hzp : P.phizderiv R z φ t = Q.phizderiv R z φ t) :
    HessAt P R z φ t := by
  constructor
  · rw [hv, hRR]; exact h.RR
  · rw [hv, hRz]; exact h.Rz
  · rw [hv, hRp]; exact h.Rp
  · rw [hv, hRz]; exact h.zR
  · rw [hv, hzz]; exact h.zz
  · rw [hv, hzp]; exact h.zp
  · rw [hv, hRp]; exact h.pR
  · rw [hv, hzp]; exact h.pz
  · rw [hv, hpp]; exact h.pp

namespace SCF

/-! ### The recurrence loop -/

theorem C_inv (a xi : ℝ) (N k : ℕ) (hk : k ≤ N) (j : ℕ) (hj : j < N) (h : j < k ∨ (2 ≤ k ∧ j ≤ k)) :
    ((List.range k).foldl (Cstep a xi N) fun _ => 0) j = geg a xi j := by
  induction k generalizing j with
  | zero => omega
  | succ k ih =>
    rw [List.range_succ, List.foldl_append, List.foldl_cons, List.foldl_nil]
    have ih' := ih (by omega)
    generalize ((List.range k).foldl (Cstep a xi N) fun _ => 0) = CC at ih' ⊢
    match k with
    | 0 =>
      have : j = 0 := by omega
      subst this
      simp [Cstep, geg]
    | 1 =>
      have h0 := ih' 0 (by omega) (by omega)
      have hN : 2 ≤ N := hk
      match j with
      | 0 =>
        simp only [Cstep, if_neg (one_ne_zero : ¬ (1 = 0)), if_true, geg] at *
        split_ifs <;> simp [h0]
      | 1 =>
        simp only [Cstep, if_neg (one_ne_zero : ¬ (1 = 0)), if_true, geg] at *
        split_ifs <;> simp
      | 2 =>
        have hN' : 1 + 1 ≠ N := by omega
        simp only [Cstep, if_neg (one_ne_zero : ¬ (1 = 0)), if_true, if_pos hN', geg] at *
        simp [h0]
        ring
      | j + 3 => omega
    | k + 2 =>
      have e1 : ¬ (k + 2 = 0) := by omega
      have e2 : ¬ (k + 2 = 1) := by omega
      simp only [Cstep, if_neg e1, if_neg e2]
      by_cases hN : k + 2 + 1 ≠ N
      · rw [if_pos hN]
        by_cases hjk : j = k + 3
        · subst hjk
          rw [show k + 2 + 1 = k + 3 from rfl, Function.update_self, ih' (k + 2) (by omega) (by omega),
            show k + 2 - 1 = k + 1 from rfl, ih' (k + 1) (by omega) (by omega)]
          have e : geg a xi (k + 3) = (2 * (((k + 1 : ℕ) : ℝ) + 1 + a) * xi * geg a xi (k + 2)
              - (((k + 1 : ℕ) : ℝ) + 2 * a) * geg a xi (k + 1)) / (((k + 1 : ℕ) : ℝ) + 2) := by
            conv_lhs => rw [geg]
          rw [e]
          generalize geg a xi (k + 2) = g2
          generalize geg a xi (k + 1) = g1
          push_cast
          have : (k : ℝ) + 1 + 2 ≠ 0 := by positivity
          have : (k : ℝ) + 2 + 1 ≠ 0 := by positivity
          field_simp
          ring
        · rw [Function.update_of_ne hjk]
          exact ih' j hj (by omega)
      · rw [if_neg hN]
        exact ih' j hj (by omega)

theorem C_eq (a xi : ℝ) {N n : ℕ} (h : n < N) : C a xi N n = geg a xi n := C_inv a xi N N le_rfl n h (by omega)

theorem CC_eq (xi : ℝ) {N n : ℕ} (l : ℕ) (h : n < N) : CC xi N n l = gegS (2 * l + 3 / 2) xi (n + 3) := C_eq _ _ h

theorem dC_eq (xi : ℝ) {N n : ℕ} (l : ℕ) (h : n < N) :
    dC xi N n l = 2 * (2 * l + 3 / 2) * gegS (2 * l + 3 / 2 + 1) xi (n + 2) := by
  unfold dC
  match n with
  | 0 => simp
  | n + 1 =>
    simp only [Function.update_of_ne (Nat.succ_ne_zero n), roll, if_neg (Nat.succ_ne_zero n), Nat.succ_sub_one]
    rw [C_eq _ _ (by omega), show n + 1 + 2 = n + 3 from rfl, Geg.s3,
      show (2 * (l : ℝ) + 3 / 2 + 1) = 2 * l + 5 / 2 by ring]
    ring

theorem d2C_eq (xi : ℝ) {N n : ℕ} (l : ℕ) (h : n < N) :
    d2C xi N n l = 4 * (2 * l + 3 / 2) * (2 * l + 3 / 2 + 1) * gegS (2 * l + 3 / 2 + 2) xi (n + 1) := by
  unfold d2C
  match n with
  | 0 =>
    by_cases hN : 1 < N
    · simp [hN]
    · simp [hN]
  | 1 => simp [h]
  | n + 2 =>
    have hN : 1 < N := by omega
    simp only [if_pos hN, Function.update_of_ne (show n + 2 ≠ 1 by omega), Function.update_of_ne (show n + 2 ≠ 0 by omega),
      roll, if_neg (show ¬ (n + 2 = 0) by omega), show n + 2 - 1 = n + 1 from rfl, if_neg (show ¬ (n + 1 = 0) by omega),
      Nat.add_sub_cancel]
    rw [C_eq _ _ (by omega), show n + 2 + 1 = n + 3 from rfl, Geg.s3,
      show (2 * (l : ℝ) + 3 / 2 + 2) = 2 * l + 7 / 2 by ring]
    ring

/-! ### Radial functions -/

section radial
variable (a : ℝ) (n l : ℕ)

/-- `(a r / (a + r)²)^l`. -/
def W (r : ℝ) : ℝ := (a * r / (a + r) ^ 2) ^ l
/-- Order of the Gegenbauer polynomial. -/
def al : ℝ := 2 * (l : ℝ) + 3 / 2
/-- The polynomial and its derivatives as functions of `r`. -/
def g0 (r : ℝ) : ℝ := gegS (al l) ((r - a) / (r + a)) (n + 3)
def g1 (r : ℝ) : ℝ := 2 * al l * gegS (al l + 1) ((r - a) / (r + a)) (n + 2)
def g2 (r : ℝ) : ℝ := 4 * al l * (al l + 1) * gegS (al l + 2) ((r - a) / (r + a)) (n + 1)

def fF (r : ℝ) : ℝ := -√(4 * π) * (W a l r / (a + r) * g0 a n l r)
def fF1 (r : ℝ) : ℝ :=
  -√(4 * π) * (W a l r * (l * (a + r) / r - (2 * l + 1)) / (a + r) ^ 2 * g0 a n l r + W a l r * (2 * a) / (a + r) ^ 3 * g1 a n l r)
def fF2 (r : ℝ) : ℝ :=
  √(4 * π) * (W a l r / (r ^ 2 * (a + r) ^ 5)) * (g0 a n l r * (l * (1 - l) * (a + r) ^ 4
    - (4 * (l : ℝ) ^ 2 + 6 * l + 2) * r * r * (a + r) ^ 2 + l * (4 * l + 2) * r * (a + r) ^ 3)
    + a * r * ((4 * r * r + 4 * a * r + (8 * l + 4) * r * (a + r) - 4 * l * (a + r) ^ 2) * g1 a n l r - 4 * a * r * g2 a n l r))
def fRho (r : ℝ) : ℝ :=
  (n * (n + 4 * l + 3) / 2 + (l + 1) * (2 * l + 1)) * (W a l r * a / (r * (a + r) ^ 3)) * g0 a n l r / √π

variable {a} {n l}

theorem al_pos : 0 < al l := by unfold al; positivity

theorem dxi {r : ℝ} (ha : 0 < a) (hr : 0 < r) :
    HasDerivAt (fun u : ℝ => (u - a) / (u + a)) (2 * a / (a + r) ^ 2) r := by
  have h : r + a ≠ 0 := by positivity
  have h' : a + r ≠ 0 := by positivity
  refine (hd_div (hd_sub (hd_id r) (hd_const a r)) (hd_add (hd_id r) (hd_const a r)) h).congr_deriv ?_
  field_simp
  ring

theorem dW {r : ℝ} (ha : 0 < a) (hr : 0 < r) :
    HasDerivAt (W a l) (W a l r * (l * (1 / r - 2 / (a + r)))) r := by
  have h' : a + r ≠ 0 := by positivity
  have hd : HasDerivAt (fun u : ℝ => a * u / (a + u) ^ 2) (a * r / (a + r) ^ 2 * (1 / r - 2 / (a + r))) r := by
    refine (hd_div (hd_const_mul a (hd_id r)) (hd_pow 2 (hd_add (hd_const a r) (hd_id r))) (pow_ne_zero 2 h')).congr_deriv ?_
    field_simp
    ring
  refine (hd_pow l hd).congr_deriv ?_
  unfold W
  cases l with
  | zero => simp
  | succ l =>
    rw [Nat.add_sub_cancel, pow_succ]
    ring

theorem dg0 {r : ℝ} (ha : 0 < a) (hr : 0 < r) : HasDerivAt (g0 a n l) (g1 a n l r * (2 * a / (a + r) ^ 2)) r :=
  HasDerivAt.comp (h₂ := fun x => gegS (al l) x (n + 3)) r (Geg.hasDerivS al_pos _ n) (dxi ha hr)

theorem dg1 {r : ℝ} (ha : 0 < a) (hr : 0 < r) : HasDerivAt (g1 a n l) (g2 a n l r * (2 * a / (a + r) ^ 2)) r := by
  have hp : (0 : ℝ) < al l + 1 := by linarith [al_pos (l := l)]
  have h : HasDerivAt (fun x : ℝ => 2 * al l * gegS (al l + 1) x (n + 2))
      (4 * al l * (al l + 1) * gegS (al l + 2) ((r - a) / (r + a)) (n + 1)) ((r - a) / (r + a)) := by
    match n with
    | 0 => simpa [gegS] using hd_const (0 : ℝ) ((r - a) / (r + a))
    | n + 1 =>
      refine (hd_const_mul (2 * al l) (Geg.hasDerivS hp ((r - a) / (r + a)) n)).congr_deriv ?_
      rw [show al l + 1 + 1 = al l + 2 by ring, show n + 1 + 1 = n + 2 from rfl]
      ring
  exact HasDerivAt.comp (h₂ := fun x => 2 * al l * gegS (al l + 1) x (n + 2)) r h (dxi ha hr)

theorem g_ode {r : ℝ} (ha : 0 < a) (hr : 0 < r) :
    4 * a * r * g2 a n l r - (4 * l + 4) * (r - a) * (a + r) * g1 a n l r + n * (n + 4 * l + 3) * (a + r) ^ 2 * g0 a n l r = 0 := by
  have h' : a + r ≠ 0 := by positivity
  have o := Geg.ode_alg (x := (r - a) / (r + a)) (al_pos (l := l)) n
  have e : 1 - ((r - a) / (r + a)) ^ 2 = 4 * a * r / (a + r) ^ 2 := by
    rw [add_comm r a]
    field_simp
    ring
  rw [e] at o
  change 4 * a * r / (a + r) ^ 2 * g2 a n l r - (2 * al l + 1) * ((r - a) / (r + a)) * g1 a n l r
    + n * (n + 2 * al l) * g0 a n l r = 0 at o
  generalize g0 a n l r = G0 at *
  generalize g1 a n l r = G1 at *
  generalize g2 a n l r = G2 at *
  rw [al, add_comm r a] at o
  field_simp at o
  linear_combination o

theorem dF {r : ℝ} (ha : 0 < a) (hr : 0 < r) : HasDerivAt (fF a n l) (fF1 a n l r) r := by
  have h' : a + r ≠ 0 := by positivity
  refine (hd_const_mul (-√(4 * π)) (hd_mul (hd_div (dW (l := l) ha hr) (hd_add (hd_const a r) (hd_id r)) h')
    (dg0 (n := n) ha hr))).congr_deriv ?_
  rw [fF1]
  generalize g0 a n l r = G0
  generalize g1 a n l r = G1
  generalize W a l r = w
  field_simp
  ring

theorem dF1 {r : ℝ} (ha : 0 < a) (hr : 0 < r) : HasDerivAt (fF1 a n l) (fF2 a n l r) r := by
  have h' : a + r ≠ 0 := by positivity
  have hs := hd_add (hd_const a r) (hd_id r)
  refine (hd_const_mul (-√(4 * π)) (hd_add
    (hd_mul (hd_div (hd_mul (dW (l := l) ha hr)
      (hd_sub (hd_div (hd_const_mul (l : ℝ) hs) (hd_id r) hr.ne') (hd_const (2 * (l : ℝ) + 1) r)))
      (hd_pow 2 hs) (pow_ne_zero 2 h')) (dg0 (n := n) ha hr))
    (hd_mul (hd_div (hd_mul_const (2 * a) (dW (l := l) ha hr)) (hd_pow 3 hs) (pow_ne_zero 3 h'))
      (dg1 (n := n) ha hr)))).congr_deriv ?_
  rw [fF2]
  generalize g0 a n l r = G0
  generalize g1 a n l r = G1
  generalize g2 a n l r = G2
  generalize W a l r = w
  field_simp
  norm_num
  ring

theorem radial_poisson {r : ℝ} (ha : 0 < a) (hr : 0 < r) :
    4 * π * fRho a n l r = fF2 a n l r + 2 / r * fF1 a n l r - l * (l + 1) / r ^ 2 * fF a n l r := by
  have h' : a + r ≠ 0 := by positivity
  have o := g_ode (n := n) (l := l) ha hr
  have hp := sqrt_pos.2 pi_pos
  have e1 : √(4 * π) = 2 * √π := by
    rw [show (4 : ℝ) * π = 2 ^ 2 * π by ring, sqrt_mul (by norm_num), sqrt_sq (by norm_num)]
  have e2 : π = √π ^ 2 := (sq_sqrt pi_pos.le).symm
  rw [fRho, fF2, fF1, fF, e1]
  generalize g0 a n l r = G0 at *
  generalize g1 a n l r = G1 at *
  generalize g2 a n l r = G2 at *
  generalize W a l r = w
  conv_lhs => rw [e2]
  simp only [sqrt_sq hp.le]
  generalize √π = s at *
  field_simp
  linear_combination (4 * a * r * w) * o

end radial

/-! ### The model's radial functions -/

section bridge
variable {a r : ℝ} {N n : ℕ}

theorem RToxi_eq (ha : 0 < a) (hr : 0 < r) : RToxi r a = (r - a) / (r + a) := by
  unfold RToxi
  have : r + a ≠ 0 := by positivity
  have : r / a + 1 ≠ 0 := by positivity
  field_simp

theorem half_pow : (4 * π : ℝ) ^ (0.5 : ℝ) = √(4 * π) := by
  rw [sqrt_eq_rpow]
  norm_num

theorem rhoTilde_eq (ha : 0 < a) (hr : 0 < r) (l : ℕ) (h : n < N) : rhoTilde a N r n l = fRho a n l r := by
  have hs : 0 < a + r := by positivity
  have e1 : (a + r) ^ (2 * (l : ℝ) + 3) = (a + r) ^ (2 * l + 3) := by
    rw [← rpow_natCast]
    push_cast
    rfl
  have e2 : (π : ℝ) ^ (-0.5 : ℝ) = (√π)⁻¹ := by
    rw [rpow_neg pi_pos.le, sqrt_eq_rpow]
    norm_num
  unfold rhoTilde fRho W g0 al
  rw [CC_eq _ _ h, RToxi_eq ha hr, e1, e2]
  generalize gegS _ _ _ = G
  generalize √π = q
  rw [div_pow, ← pow_mul, pow_add]
  norm_num
  field_simp

theorem phiTilde_eq (ha : 0 < a) (hr : 0 < r) (l : ℕ) (h : n < N) : phiTilde a N r n l = fF a n l r := by
  have hs : 0 < a + r := by positivity
  have h1 : 1 + a / r = (a + r) / r := by field_simp; ring
  have e1 : (1 + a / r) ^ (2 * (l : ℝ) + 1) = ((a + r) / r) ^ (2 * l + 1) := by
    rw [← rpow_natCast, h1]
    push_cast
    rfl
  have e2 : r ^ (-(l : ℝ) - 1) = (r ^ (l + 1))⁻¹ := by
    rw [← rpow_natCast, ← rpow_neg hr.le]
    congr 1
    push_cast
    ring
  unfold phiTilde fF W g0 al
  rw [if_neg hr.ne', CC_eq _ _ h, RToxi_eq ha hr, e1, e2, half_pow]
  generalize gegS _ _ _ = G
  generalize √(4 * π) = q
  rw [div_pow, div_pow, ← pow_mul, mul_pow, pow_add, pow_add, pow_add]
  have : r ^ (2 * l) = r ^ l * r ^ l := by rw [two_mul, pow_add]
  rw [this]
  field_simp

theorem dphiTilde_eq (ha : 0 < a) (hr : 0 < r) (l : ℕ) (h : n < N) : dphiTilde a N r n l = fF1 a n l r := by
  have hs : 0 < a + r := by positivity
  have e1 : 1 - (r - a) / (r + a) = 2 * a / (a + r) := by
    rw [add_comm r a]
    field_simp
    ring
  unfold dphiTilde fF1 W g0 g1 al
  simp only []
  rw [CC_eq _ _ h, dC_eq _ _ h, RToxi_eq ha hr, half_pow, e1]
  generalize gegS _ _ (n + 3) = G
  generalize gegS _ _ (n + 2) = G'
  generalize √(4 * π) = q
  rw [div_pow, div_pow, ← pow_mul, pow_add, pow_add]
  field_simp

theorem d2phiTilde_eq (ha : 0 < a) (hr : 0 < r) (l : ℕ) (h : n < N) : d2phiTilde a N r n l = fF2 a n l r := by
  have hs : 0 < a + r := by positivity
  unfold d2phiTilde fF2 W g0 g1 g2 al
  simp only []
  rw [if_neg hr.ne', CC_eq _ _ h, dC_eq _ _ h, d2C_eq _ _ h, RToxi_eq ha hr, half_pow]
  generalize gegS _ _ (n + 3) = G
  generalize gegS _ _ (n + 2) = G'
  generalize gegS _ _ (n + 1) = G''
  generalize √(4 * π) = q
  rw [← pow_two (a + r)]
  generalize (a * r / (a + r) ^ 2) ^ l = w
  field_simp

end bridge

/-! ### The terms of the sum -/

/-- One term of the expansion. -/
def term (p : Par) (i : ℕ × ℕ × ℕ) (t : ℝ) : SHTerm where
  F := fF p.a i.1 i.2.1
  F1 := fF1 p.a i.1 i.2.1
  F2 := fF2 p.a i.1 i.2.1
  A := alp i.2.1 i.2.2
  A1 := Leg.alp1 i.2.1 i.2.2
  A2 := Leg.alp2 i.2.1 i.2.2
  G := fun φ => (p.coef t).c i.1 i.2.1 i.2.2 * cos (i.2.2 * φ) + (p.coef t).s i.1 i.2.1 i.2.2 * sin (i.2.2 * φ)
  G1 := fun φ => i.2.2 * ((p.coef t).s i.1 i.2.1 i.2.2 * cos (i.2.2 * φ) - (p.coef t).c i.1 i.2.1 i.2.2 * sin (i.2.2 * φ))
  G2 := fun φ => -(i.2.2 : ℝ) * i.2.2
    * ((p.coef t).c i.1 i.2.1 i.2.2 * cos (i.2.2 * φ) + (p.coef t).s i.1 i.2.1 i.2.2 * sin (i.2.2 * φ))
  rho := fRho p.a i.1 i.2.1

theorem dcosm (m φ : ℝ) : HasDerivAt (fun u : ℝ => cos (m * u)) (-(m * sin (m * φ))) φ := by
  refine (hd_cos (hd_const_mul m (hd_id φ))).congr_deriv ?_
  ring

theorem dsinm (m φ : ℝ) : HasDerivAt (fun u : ℝ => sin (m * u)) (m * cos (m * φ)) φ := by
  refine (hd_sin (hd_const_mul m (hd_id φ))).congr_deriv ?_
  ring

theorem term_ok (p : Par) (ha : 0 < p.a) (i : ℕ × ℕ × ℕ) (t : ℝ) : (term p i t).Ok where
  dF := fun _ hr => dF ha hr
  dF1 := fun _ hr => dF1 ha hr
  dA := fun _ h => Leg.alp_deriv _ _ h
  dA1 := fun _ h => Leg.alp1_deriv _ _ h
  dG := fun φ => by
    refine (hd_add (hd_const_mul _ (dcosm _ φ)) (hd_const_mul _ (dsinm _ φ))).congr_deriv ?_
    simp only [term]
    ring
  dG1 := fun φ => by
    refine (hd_const_mul _ (hd_sub (hd_const_mul _ (dcosm _ φ)) (hd_const_mul _ (dsinm _ φ)))).congr_deriv ?_
    simp only [term]
    ring
  poisson := fun r x φ hr hx => by
    have o := Leg.alp_ode i.2.1 i.2.2 hx
    have q := radial_poisson (n := i.1) (l := i.2.1) ha hr
    have hp : 1 - x ^ 2 ≠ 0 := by linarith
    simp only [term]
    generalize fRho p.a i.1 i.2.1 r = ρ at *
    generalize fF p.a i.1 i.2.1 r = f at *
    generalize fF1 p.a i.1 i.2.1 r = f1 at *
    generalize fF2 p.a i.1 i.2.1 r = f2 at *
    generalize alp i.2.1 i.2.2 x = A at *
    generalize Leg.alp1 i.2.1 i.2.2 x = A1 at *
    generalize Leg.alp2 i.2.1 i.2.2 x = A2 at *
    generalize (p.coef t).c i.1 i.2.1 i.2.2 * cos (i.2.2 * φ) + (p.coef t).s i.1 i.2.1 i.2.2 * sin (i.2.2 * φ) = g
    have e : (1 - x ^ 2) * A2 - 2 * x * A1 = -((i.2.1 : ℝ) * (i.2.1 + 1) - i.2.2 ^ 2 / (1 - x ^ 2)) * A := by
      linear_combination o
    rw [e]
    have e2 : 4 * π * (ρ * A * g) = (4 * π * ρ) * A * g := by ring
    rw [e2, q]
    field_simp
    ring

/-- The index set of the sums. -/
def Par.idx (p : Par) : Finset (ℕ × ℕ × ℕ) := range p.N ×ˢ range p.L ×ˢ range p.M

theorem Par.sum_eq (p : Par) (f : ℕ → ℕ → ℕ → ℝ) : p.sum f = ∑ i ∈ p.idx, f i.1 i.2.1 i.2.2 := by
  unfold Par.sum Par.idx
  rw [Finset.sum_product]
  refine Finset.sum_congr rfl fun n _ => ?_
  rw [Finset.sum_product]

theorem Par.lt {p : Par} {i : ℕ × ℕ × ℕ} (h : i ∈ p.idx) : i.1 < p.N := by
  unfold Par.idx at h
  rw [Finset.mem_product] at h
  exact Finset.mem_range.1 h.1

/-- The sum of the terms. -/
def Q (p : Par) : Pot := Pot.fsum p.idx fun i => SHTerm.pot (term p i)

theorem Q_consistent (p : Par) (ha : 0 < p.a) : Consistent (Q p) SHTerm.D :=
  .fsum SHTerm.D_open _ fun i _ => SHTerm.consistent fun t => term_ok p ha i t

/-! ### The model's methods are those of the sum -/

section meth
variable {R z : ℝ}

theorem cosθ (hR : 0 < R) : cos (Coords.atan2 R z) = z / √(R ^ 2 + z ^ 2) := by
  have h := Coords.polar_cos z R
  rw [add_comm (z ^ 2)] at h
  have := SHTerm.w_pos (z := z) hR
  field_simp
  linarith

theorem sinθ (hR : 0 < R) : sin (Coords.atan2 R z) = R / √(R ^ 2 + z ^ 2) := by
  have h := Coords.polar_sin z R
  rw [add_comm (z ^ 2)] at h
  have := SHTerm.w_pos (z := z) hR
  field_simp
  linarith

variable {p : Par}

theorem val_eq (ha : 0 < p.a) (hR : 0 < R) (φ t : ℝ) : (raw p).val R z φ t = (Q p).val R z φ t := by
  have hw := SHTerm.w_pos (z := z) hR
  simp only [raw, evaluate, atPoint, Coords.cyl_to_spher, Q, Pot.fsum, SHTerm.pot, Par.sum_eq, cosθ hR, PP]
  refine Finset.sum_congr rfl fun i hi => ?_
  rw [phiTilde_eq ha hw _ (Par.lt hi)]
  simp only [term]
  ring

theorem dens_eq (ha : 0 < p.a) (hR : 0 < R) (φ t : ℝ) : (raw p).dens R z φ t = (Q p).dens R z φ t := by
  have hw := SHTerm.w_pos (z := z) hR
  simp only [raw, dens, atPoint, Coords.cyl_to_spher, Q, Pot.fsum, SHTerm.pot, Par.sum_eq, cosθ hR, PP]
  refine Finset.sum_congr rfl fun i hi => ?_
  rw [rhoTilde_eq ha hw _ (Par.lt hi)]
  simp only [term]
  ring

theorem Rforce_eq (ha : 0 < p.a) (hR : 0 < R) (φ t : ℝ) : (raw p).Rforce R z φ t = (Q p).Rforce R z φ t := by
  have hw := SHTerm.w_pos (z := z) hR
  simp only [raw, RforceOf, cylForce, spherForces, Coords.cyl_to_spher, Q, Pot.fsum, SHTerm.pot, Par.sum_eq, cosθ hR, sinθ hR,
    PP, dPP, mul_zero, add_zero, ← Finset.sum_neg_distrib, Finset.mul_sum, ← Finset.sum_add_distrib]
  refine Finset.sum_congr rfl fun i hi => ?_
  rw [phiTilde_eq ha hw _ (Par.lt hi), dphiTilde_eq ha hw _ (Par.lt hi), Leg.deriv_alp _ _ (SHTerm.x_lt hR)]
  simp only [term]
  ring

theorem zforce_eq (ha : 0 < p.a) (hR : 0 < R) (φ t : ℝ) : (raw p).zforce R z φ t = (Q p).zforce R z φ t := by
  have hw := SHTerm.w_pos (z := z) hR
  simp only [raw, zforceOf, cylForce, spherForces, Coords.cyl_to_spher, Q, Pot.fsum, SHTerm.pot, Par.sum_eq, cosθ hR, sinθ hR,
    PP, dPP, mul_zero, add_zero, ← Finset.sum_neg_distrib, Finset.mul_sum, ← Finset.sum_add_distrib]
  refine Finset.sum_congr rfl fun i hi => ?_
  rw [phiTilde_eq ha hw _ (Par.lt hi), dphiTilde_eq ha hw _ (Par.lt hi), Leg.deriv_alp _ _ (SHTerm.x_lt hR)]
  simp only [term]
  ring

theorem phitorque_eq (ha : 0 < p.a) (hR : 0 < R) (φ t : ℝ) : (raw p).phitorque R z φ t = (Q p).phitorque R z φ t := by
  have hw := SHTerm.w_pos (z := z) hR
  simp only [raw, phitorqueOf, cylForce, spherForces, Coords.cyl_to_spher, Q, Pot.fsum, SHTerm.pot, Par.sum_eq, cosθ hR,
    PP, dPP, zero_mul, zero_add, mul_one, ← Finset.sum_neg_distrib]
  refine Finset.sum_congr rfl fun i hi => ?_
  rw [phiTilde_eq ha hw _ (Par.lt hi)]
  simp only [term]
  ring

/-- The point is not treated as one on the axis. -/
def OffPole (p : Par) (R z : ℝ) : Prop := p.M ≤ 1 ∨ 1e-14 ≤ R ^ 2 / (R ^ 2 + z ^ 2)

theorem hess_eq (ha : 0 < p.a) (hR : 0 < R) (h : OffPole p R z) (φ t : ℝ) :
    (raw p).R2deriv R z φ t = (Q p).R2deriv R z φ t ∧ (raw p).z2deriv R z φ t = (Q p).z2deriv R z φ t
    ∧ (raw p).Rzderiv R z φ t = (Q p).Rzderiv R z φ t ∧ (raw p).phi2deriv R z φ t = (Q p).phi2deriv R z φ t
    ∧ (raw p).Rphideriv R z φ t = (Q p).Rphideriv R z φ t ∧ (raw p).phizderiv R z φ t = (Q p).phizderiv R z φ t := by
  have hw := SHTerm.w_pos (z := z) hR
  have hx := SHTerm.x_lt (z := z) hR
  have hu := SHTerm.u_pos (z := z) hR
  have hn : ¬(1 < p.M ∧ |1 - z / √(R ^ 2 + z ^ 2) * (z / √(R ^ 2 + z ^ 2))| < 1e-14) := by
    rintro ⟨hM, hl⟩
    rcases h with h | h
    · omega
    · have e : 1 - z / √(R ^ 2 + z ^ 2) * (z / √(R ^ 2 + z ^ 2)) = R ^ 2 / (R ^ 2 + z ^ 2) := by
        rw [← pow_two, div_pow, SHTerm.w_sq hR]
        field_simp
        ring
      rw [e, abs_of_nonneg (by positivity)] at hl
      exact absurd h (not_le.2 hl)
  have e2 : R * R + z * z = R ^ 2 + z ^ 2 := by ring
  have es : R ^ 2 + z ^ 2 = √(R ^ 2 + z ^ 2) ^ 2 := (SHTerm.w_sq hR).symm
  refine ⟨?_, ?_, ?_, ?_, ?_, ?_⟩
  all_goals
    simp only [raw, cyl2nd, spher2nd, Coords.cyl_to_spher, Q, Pot.fsum, SHTerm.pot, Par.sum_eq, cosθ hR, sinθ hR, e2,
      if_neg hw.ne', if_neg hn, PP, dPP, d2PP]
    generalize √(R ^ 2 + z ^ 2) = w at *
    try simp only [es]
    try simp only [sub_eq_add_neg, Finset.mul_sum, Finset.sum_mul, Finset.sum_div, ← Finset.sum_neg_distrib,
      ← Finset.sum_add_distrib]
    refine Finset.sum_congr rfl fun i hi => ?_
    simp only [phiTilde_eq ha hw _ (Par.lt hi), dphiTilde_eq ha hw _ (Par.lt hi), d2phiTilde_eq ha hw _ (Par.lt hi),
      Leg.deriv_alp _ _ hx, (Leg.deriv_alp_deriv _ _ hx).deriv]
    simp only [term]
    generalize fF p.a i.1 i.2.1 w = f at *
    try generalize fF1 p.a i.1 i.2.1 w = f1 at *
    try generalize fF2 p.a i.1 i.2.1 w = f2 at *
    try generalize alp i.2.1 i.2.2 (z / w) = A at *
    try generalize Leg.alp1 i.2.1 i.2.2 (z / w) = A1 at *
    try generalize Leg.alp2 i.2.1 i.2.2 (z / w) = A2 at *
    ring

end meth

/-- The record with the second derivatives of the sum. -/
def raw' (p : Par) : Pot :=
  { raw p with R2deriv := (Q p).R2deriv, z2deriv := (Q p).z2deriv, Rzderiv := (Q p).Rzderiv, phi2deriv := (Q p).phi2deriv,
               Rphideriv := (Q p).Rphideriv, phizderiv := (Q p).phizderiv }

theorem raw'_consistent (p : Par) (ha : 0 < p.a) : Consistent (raw' p) SHTerm.D :=
  .congr_on SHTerm.D_open (Q_consistent p ha) (fun _ _ _ _ h => val_eq ha h _ _) (fun _ _ _ _ h => Rforce_eq ha h _ _)
    (fun _ _ _ _ h => zforce_eq ha h _ _) (fun _ _ _ _ h => phitorque_eq ha h _ _) (fun _ _ _ _ _ => rfl) (fun _ _ _ _ _ => rfl)
    (fun _ _ _ _ _ => rfl) (fun _ _ _ _ _ => rfl) (fun _ _ _ _ _ => rfl) (fun _ _ _ _ _ => rfl)
    (fun _ _ _ _ h => dens_eq ha h _ _)

theorem grad {p : Par} (ha : 0 < p.a) {R z : ℝ} (hR : 0 < R) (φ t : ℝ) : GradAt (raw p) R z φ t :=
  have h := (raw'_consistent p ha).grad R z φ t hR
  ⟨h.dR, h.dz, h.dphi⟩

theorem poisson {p : Par} (ha : 0 < p.a) {R z : ℝ} (hR : 0 < R) (φ t : ℝ) : PoissonAt (raw p) R z φ t :=
  (raw'_consistent p ha).poisson R z φ t hR hR.ne'

theorem hess {p : Par} (ha : 0 < p.a) {R z : ℝ} (hR : 0 < R) (h : OffPole p R z) (φ t : ℝ) : HessAt (raw p) R z φ t := by
  obtain ⟨h1, h2, h3, h4, h5, h6⟩ := hess_eq ha hR h φ t
  exact ((raw'_consistent p ha).hess R z φ t hR).congr rfl h1 h2 h3 h4 h5 h6

/-! ### Memory -/

/-- The value a method computes from its arguments and the coefficients alone. -/
def Method.pure (p : Par) : Method → ℝ → ℝ → ℝ → ℝ → ℝ
  | .val => (raw p).val
  | .dens => (raw p).dens
  | .mass => fun R _ _ t => SCF.mass p (p.coef t) R
  | .Rforce => (raw p).Rforce
  | .zforce => (raw p).zforce
  | .phitorque => (raw p).phitorque
  | .d2 .R2 => (raw p).R2deriv
  | .d2 .z2 => (raw p).z2deriv
  | .d2 .Rz => (raw p).Rzderiv
  | .d2 .phi2 => (raw p).phi2deriv
  | .d2 .Rphi => (raw p).Rphideriv
  | .d2 .phiz => (raw p).phizderiv

/-- What the memory of an object always satisfies. -/
structure Inv (p : Par) (σ : State) : Prop where
  static : p.tdep = false → ∀ t, σ.cur = p.coef t
  tdep : p.tdep = true → ∀ t, σ.coefT = some t → σ.cur = p.coef t
  force : ∀ R z φ t v, σ.force = some ((R, z, φ, t), v) → v = spherForces p (p.coef t) R z φ
  hess : ∀ R z φ t v, σ.hess = some ((R, z, φ, t), v) → v = spher2nd p (p.coef t) R z φ

theorem coef_static {p : Par} (h : p.tdep = false) (t t' : ℝ) : p.coef t = p.coef t' := by simp [Par.coef, h]

theorem start_inv (p : Par) (init : Coef) : Inv p (start p init) where
  static := fun h t => by
    simp only [start, h]
    exact coef_static h _ _
  tdep := by simp [start]
  force := by simp [start]
  hess := by simp [start]

theorem ensure_inv {p : Par} {σ : State} (i : Inv p σ) (t : ℝ) : Inv p (ensure p σ t) ∧ (ensure p σ t).cur = p.coef t := by
  unfold ensure
  by_cases h : p.tdep = false
  · rw [if_pos h]
    exact ⟨i, i.static h t⟩
  · have h' : p.tdep = true := by simpa using h
    rw [if_neg h]
    by_cases ht : σ.coefT = some t
    · rw [if_pos ht]
      exact ⟨i, i.tdep h' t ht⟩
    · rw [if_neg ht]
      have e : (⟨p.Ic t, p.Is t⟩ : Coef) = p.coef t := by simp [Par.coef, h']
      refine ⟨⟨fun k => absurd k h, fun _ t' k => ?_, i.force, i.hess⟩, e⟩
      simp only [Option.some.injEq] at k
      rw [← k]
      exact e

theorem forcesM_inv {p : Par} {σ : State} (i : Inv p σ) (R z φ t : ℝ) :
    Inv p (forcesM p σ R z φ t).1 ∧ (forcesM p σ R z φ t).2 = spherForces p (p.coef t) R z φ := by
  obtain ⟨j, e⟩ := ensure_inv i t
  unfold forcesM
  generalize ensure p σ t = τ at *
  have new : Inv p { τ with force := some ((R, z, φ, t), spherForces p τ.cur R z φ) } :=
    ⟨j.static, j.tdep, fun R' z' φ' t' v k => by
      simp only [Option.some.injEq, Prod.mk.injEq] at k
      obtain ⟨⟨h1, h2, h3, h4⟩, h5⟩ := k
      rw [← h5, e, h1, h2, h3, h4], j.hess⟩
  simp only []
  split
  · rename_i key v hk
    split_ifs with hh
    · exact ⟨j, j.force R z φ t v (by rw [hk, hh])⟩
    · exact ⟨new, by rw [e]⟩
  · exact ⟨new, by rw [e]⟩

theorem hessM_inv {p : Par} {σ : State} (i : Inv p σ) (R z φ t : ℝ) :
    Inv p (hessM p σ R z φ t).1 ∧ (hessM p σ R z φ t).2 = spher2nd p (p.coef t) R z φ := by
  obtain ⟨j, e⟩ := ensure_inv i t
  unfold hessM
  generalize ensure p σ t = τ at *
  have new : Inv p { τ with hess := some ((R, z, φ, t), spher2nd p τ.cur R z φ) } :=
    ⟨j.static, j.tdep, j.force, fun R' z' φ' t' v k => by
      simp only [Option.some.injEq, Prod.mk.injEq] at k
      obtain ⟨⟨h1, h2, h3, h4⟩, h5⟩ := k
      rw [← h5, e, h1, h2, h3, h4]⟩
  simp only []
  split
  · rename_i key v hk
    split_ifs with hh
    · exact ⟨i, i.hess R z φ t v (by rw [hk, hh])⟩
    · exact ⟨new, by rw [e]⟩
  · exact ⟨new, by rw [e]⟩

theorem call_inv {p : Par} {σ : State} (i : Inv p σ) (m : Method) (R z φ t : ℝ) :
    Inv p (call p σ m R z φ t).1 ∧ (call p σ m R z φ t).2 = m.pure p R z φ t := by
  obtain ⟨j, e⟩ := ensure_inv i t
  obtain ⟨jf, ef⟩ := forcesM_inv i R z φ t
  obtain ⟨jh, eh⟩ := hessM_inv i R z φ t
  cases m with
  | val => exact ⟨j, by simp [call, e, Method.pure, raw]⟩
  | dens => exact ⟨j, by simp [call, e, Method.pure, raw]⟩
  | mass => exact ⟨j, by simp [call, e, Method.pure]⟩
  | Rforce => exact ⟨jf, by simp [call, ef, Method.pure, raw]⟩
  | zforce => exact ⟨jf, by simp [call, ef, Method.pure, raw]⟩
  | phitorque => exact ⟨jf, by simp [call, ef, Method.pure, raw]⟩
  | d2 k => refine ⟨jh, ?_⟩; cases k <;> simp [call, eh, Method.pure, raw]

theorem run_eq {p : Par} (l : List (Method × ℝ × ℝ × ℝ × ℝ)) {σ : State} (i : Inv p σ) :
    run p σ l = l.map fun c => c.1.pure p c.2.1 c.2.2.1 c.2.2.2.1 c.2.2.2.2 := by
  induction l generalizing σ with
  | nil => rfl
  | cons c l ih =>
    obtain ⟨m, R, z, φ, t⟩ := c
    obtain ⟨j, e⟩ := call_inv i m R z φ t
    simp only [run, List.map_cons, ih j, e]

/-! ### Second derivatives with old scipy -/

theorem d2PPold_eq {l m : ℕ} {x : ℝ} (h : 1e-14 ≤ 1 - x ^ 2) : d2PPold l m x = d2PP l m x := by
  have hx : x ^ 2 < 1 := by
    have : (0 : ℝ) < 1e-14 := by norm_num
    linarith
  have hp : 1 - x ^ 2 ≠ 0 := by linarith
  have hn : ¬|1 - x * x| < 1e-14 := by
    rw [← pow_two, abs_of_nonneg (by linarith)]
    exact not_lt.2 h
  unfold d2PPold d2PP dPP PP
  simp only [if_neg hn]
  rw [(Leg.deriv_alp_deriv l m hx).deriv, Leg.deriv_alp l m hx]
  have o := Leg.alp_ode l m hx
  split_ifs with hm
  · rw [← pow_two x]
    generalize alp l m x = A at *
    generalize Leg.alp1 l m x = A1 at *
    generalize Leg.alp2 l m x = A2 at *
    field_simp at o ⊢
    linear_combination -o
  · have h1 : l < m := by omega
    unfold Leg.alp2
    rw [Leg.q_zero h1, Leg.q_zero (by omega : l < m + 1), Leg.q_zero (by omega : l < m + 2)]
    ring

end SCF
end Verif
