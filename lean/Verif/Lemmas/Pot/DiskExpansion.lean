import Verif.Model.Pot.DiskExpansion
import Verif.Lemmas.Pot.Sum
import Verif.Lemmas.Pot.Ops
import Mathlib.MeasureTheory.Integral.IntervalIntegral.IntegrationByParts
import Mathlib.Analysis.Calculus.ParametricIntervalIntegral

set_option autoImplicit false

noncomputable section
namespace Verif.DiskExp
open Real Filter Topology

/-- The functions of a pair are the derivatives they are meant to be: `s' = ds`, `s'' = d2s` at positive radii, `H' = dH`,
`dH' = h` at all heights. -/
structure Pair.Ok (p : Pair) : Prop where
  s : ∀ r, 0 < r → HasDerivAt p.s (p.ds r) r
  ds : ∀ r, 0 < r → HasDerivAt p.ds (p.d2s r) r
  H : ∀ z, HasDerivAt p.H (p.dH z) z
  dH : ∀ z, HasDerivAt p.dH (p.h z) z

/-! ### One pair as a potential -/

def Pair.pot (p : Pair) : Pot :=
  Pot.axi (fun R z => 4 * π * p.a * p.s (√(R ^ 2 + z ^ 2)) * p.H z)
    (fun R z => -(4 * π * p.a * p.ds (√(R ^ 2 + z ^ 2)) * p.H z * R / √(R ^ 2 + z ^ 2)))
    (fun R z => -(4 * π * p.a * (p.ds (√(R ^ 2 + z ^ 2)) * p.H z * z / √(R ^ 2 + z ^ 2) + p.s (√(R ^ 2 + z ^ 2)) * p.dH z)))
    (fun R z => 4 * π * p.a * p.H z / √(R ^ 2 + z ^ 2) ^ 2 * (p.d2s (√(R ^ 2 + z ^ 2)) * R ^ 2 + z ^ 2 / √(R ^ 2 + z ^ 2) * p.ds (√(R ^ 2 + z ^ 2))))
    (fun R z => 4 * π * p.a * (p.H z / √(R ^ 2 + z ^ 2) ^ 2 * (p.d2s (√(R ^ 2 + z ^ 2)) * z ^ 2 + p.ds (√(R ^ 2 + z ^ 2)) * R ^ 2 / √(R ^ 2 + z ^ 2))
      + 2 * p.ds (√(R ^ 2 + z ^ 2)) * p.dH z * z / √(R ^ 2 + z ^ 2) + p.s (√(R ^ 2 + z ^ 2)) * p.h z))
    (fun R z => 4 * π * p.a * (p.H z * R * z / √(R ^ 2 + z ^ 2) ^ 2 * (p.d2s (√(R ^ 2 + z ^ 2)) - p.ds (√(R ^ 2 + z ^ 2)) / √(R ^ 2 + z ^ 2))
      + p.ds (√(R ^ 2 + z ^ 2)) * p.dH z * R / √(R ^ 2 + z ^ 2)))
    (fun R z => p.rho (√(R ^ 2 + z ^ 2)) z)

section deriv
variable {p : Pair} {R z : ℝ}

theorem hr_R (h : 0 < R ^ 2 + z ^ 2) : HasDerivAt (fun x : ℝ => √(x ^ 2 + z ^ 2)) (R / √(R ^ 2 + z ^ 2)) R := by
  apply HasDerivAt.congr_deriv
  · hasderiv
    exact h.ne'
  · have := sqrt_pos.2 h
    field_simp
    ring
theorem hr_z (h : 0 < R ^ 2 + z ^ 2) : HasDerivAt (fun x : ℝ => √(R ^ 2 + x ^ 2)) (z / √(R ^ 2 + z ^ 2)) z := by
  apply HasDerivAt.congr_deriv
  · hasderiv
    exact h.ne'
  · have := sqrt_pos.2 h
    field_simp
    ring

theorem comp_R {f f' : ℝ → ℝ} (hf : ∀ r, 0 < r → HasDerivAt f (f' r) r) (h : 0 < R ^ 2 + z ^ 2) :
    HasDerivAt (fun x : ℝ => f (√(x ^ 2 + z ^ 2))) (f' (√(R ^ 2 + z ^ 2)) * (R / √(R ^ 2 + z ^ 2))) R :=
  HasDerivAt.comp (h := fun x : ℝ => √(x ^ 2 + z ^ 2)) R (hf _ (sqrt_pos.2 h)) (hr_R h)
theorem comp_z {f f' : ℝ → ℝ} (hf : ∀ r, 0 < r → HasDerivAt f (f' r) r) (h : 0 < R ^ 2 + z ^ 2) :
    HasDerivAt (fun x : ℝ => f (√(R ^ 2 + x ^ 2))) (f' (√(R ^ 2 + z ^ 2)) * (z / √(R ^ 2 + z ^ 2))) z :=
  HasDerivAt.comp (h := fun x : ℝ => √(R ^ 2 + x ^ 2)) z (hf _ (sqrt_pos.2 h)) (hr_z h)

theorem pair_consistent (k : p.Ok) : Consistent p.pot (fun R z _ => 0 < R ^ 2 + z ^ 2) := by
  refine Consistent.axi (D := fun R z => 0 < R ^ 2 + z ^ 2) ?_ ?_ ?_ ?_ ?_ ?_ ?_ ?_ ?_
  · intro R z h
    exact ev_pos (by fun_prop) h
  · intro R z h
    exact ev_pos (by fun_prop) h
  · intro R z h
    have h1 := comp_R k.s h
    have := sqrt_pos.2 h
    apply HasDerivAt.congr_deriv
    · hasderiv
    · ring
  · intro R z h
    have h1 := comp_z k.s h
    have h2 := k.H z
    have := sqrt_pos.2 h
    apply HasDerivAt.congr_deriv
    · hasderiv
    · ring
  · intro R z h
    have h1 := comp_R k.ds h
    have h2 := hr_R h
    have h3 := sqrt_pos.2 h
    have h4 := sq_sqrt h.le
    apply HasDerivAt.congr_deriv
    · hasderiv
      exact h3.ne'
    · beta_reduce
      generalize √(R ^ 2 + z ^ 2) = r at *
      obtain rfl | hz := eq_or_ne z 0
      · field_simp
        ring_nf
        simp only [show R ^ 2 = r ^ 2 by linarith]
        ring
      · field_simp
        ring_nf
        have : z ^ 2 = r ^ 2 - R ^ 2 := by linarith
        simp only [this]
        ring
  · intro R z h
    have h1 := comp_z k.ds h
    have h2 := hr_z h
    have hH := k.H z
    have h3 := sqrt_pos.2 h
    have h4 := sq_sqrt h.le
    apply HasDerivAt.congr_deriv
    · hasderiv
      exact h3.ne'
    · beta_reduce
      generalize √(R ^ 2 + z ^ 2) = r at *
      field_simp
      ring
  · intro R z h
    have h0 := comp_R k.s h
    have h1 := comp_R k.ds h
    have h2 := hr_R h
    have h3 := sqrt_pos.2 h
    have h4 := sq_sqrt h.le
    apply HasDerivAt.congr_deriv
    · hasderiv
      exact h3.ne'
    · beta_reduce
      generalize √(R ^ 2 + z ^ 2) = r at *
      field_simp
  · intro R z h
    have h0 := comp_z k.s h
    have h1 := comp_z k.ds h
    have h2 := hr_z h
    have hH := k.H z
    have hdH := k.dH z
    have h3 := sqrt_pos.2 h
    have h4 := sq_sqrt h.le
    apply HasDerivAt.congr_deriv
    · hasderiv
      exact h3.ne'
    · beta_reduce
      generalize √(R ^ 2 + z ^ 2) = r at *
      have : R ^ 2 = r ^ 2 - z ^ 2 := by linarith
      simp only [this]
      field_simp
      ring
  · intro R z h hR
    have h3 := sqrt_pos.2 h
    have h4 := sq_sqrt h.le
    simp only [Pair.rho]
    generalize √(R ^ 2 + z ^ 2) = r at *
    have : z ^ 2 = r ^ 2 - R ^ 2 := by linarith
    simp only [this]
    field_simp
    ring

end deriv

/-! ### The whole object -/

theorem foldl_add {α : Type} (f : α → ℝ) (l : List α) (x : ℝ) :
    l.foldl (fun out p => out + f p) x = x + (l.map f).sum := by
  induction l generalizing x with
  | nil => simp
  | cons p l ih => simp [ih, add_assoc]
theorem foldl_sub {α : Type} (f : α → ℝ) (l : List α) (x : ℝ) :
    l.foldl (fun out p => out - f p) x = x - (l.map f).sum := by
  induction l generalizing x with
  | nil => simp
  | cons p l ih => simp [ih, sub_sub]

/-- The whole object with the mixed azimuthal derivatives of the expansion object. -/
def full (me : Pot) (ps : List Pair) : Pot := me.add (Pot.sum (ps.map Pair.pot))

theorem sum_val (l : List Pot) (R z φ t : ℝ) : (Pot.sum l).val R z φ t = (l.map fun P => P.val R z φ t).sum := by
  induction l with
  | nil => rfl
  | cons P l ih => simp only [Pot.sum, List.foldr_cons, List.map_cons, List.sum_cons, Pot.add] at *; rw [ih]
theorem sum_Rforce (l : List Pot) (R z φ t : ℝ) : (Pot.sum l).Rforce R z φ t = (l.map fun P => P.Rforce R z φ t).sum := by
  induction l with
  | nil => rfl
  | cons P l ih => simp only [Pot.sum, List.foldr_cons, List.map_cons, List.sum_cons, Pot.add] at *; rw [ih]
theorem sum_zforce (l : List Pot) (R z φ t : ℝ) : (Pot.sum l).zforce R z φ t = (l.map fun P => P.zforce R z φ t).sum := by
  induction l with
  | nil => rfl
  | cons P l ih => simp only [Pot.sum, List.foldr_cons, List.map_cons, List.sum_cons, Pot.add] at *; rw [ih]
theorem sum_phitorque (l : List Pot) (R z φ t : ℝ) : (Pot.sum l).phitorque R z φ t = (l.map fun P => P.phitorque R z φ t).sum := by
  induction l with
  | nil => rfl
  | cons P l ih => simp only [Pot.sum, List.foldr_cons, List.map_cons, List.sum_cons, Pot.add] at *; rw [ih]
theorem sum_R2deriv (l : List Pot) (R z φ t : ℝ) : (Pot.sum l).R2deriv R z φ t = (l.map fun P => P.R2deriv R z φ t).sum := by
  induction l with
  | nil => rfl
  | cons P l ih => simp only [Pot.sum, List.foldr_cons, List.map_cons, List.sum_cons, Pot.add] at *; rw [ih]
theorem sum_z2deriv (l : List Pot) (R z φ t : ℝ) : (Pot.sum l).z2deriv R z φ t = (l.map fun P => P.z2deriv R z φ t).sum := by
  induction l with
  | nil => rfl
  | cons P l ih => simp only [Pot.sum, List.foldr_cons, List.map_cons, List.sum_cons, Pot.add] at *; rw [ih]
theorem sum_Rzderiv (l : List Pot) (R z φ t : ℝ) : (Pot.sum l).Rzderiv R z φ t = (l.map fun P => P.Rzderiv R z φ t).sum := by
  induction l with
  | nil => rfl
  | cons P l ih => simp only [Pot.sum, List.foldr_cons, List.map_cons, List.sum_cons, Pot.add] at *; rw [ih]
theorem sum_phi2deriv (l : List Pot) (R z φ t : ℝ) : (Pot.sum l).phi2deriv R z φ t = (l.map fun P => P.phi2deriv R z φ t).sum := by
  induction l with
  | nil => rfl
  | cons P l ih => simp only [Pot.sum, List.foldr_cons, List.map_cons, List.sum_cons, Pot.add] at *; rw [ih]
theorem sum_dens (l : List Pot) (R z φ t : ℝ) : (Pot.sum l).dens R z φ t = (l.map fun P => P.dens R z φ t).sum := by
  induction l with
  | nil => rfl
  | cons P l ih => simp only [Pot.sum, List.foldr_cons, List.map_cons, List.sum_cons, Pot.add] at *; rw [ih]

theorem map_neg_sum {α : Type} (f : α → ℝ) (l : List α) : (l.map fun x => -f x).sum = -(l.map f).sum := by
  induction l with
  | nil => simp
  | cons p l ih => simp [ih]; ring
theorem map_zero_sum {α : Type} (l : List α) : (l.map fun _ => (0 : ℝ)).sum = 0 := by simp

section eqs
variable (me : Pot) (ps : List Pair)

theorem val_eq : (raw me ps).val = (full me ps).val := by
  funext R z φ t
  simp only [raw, evaluate, full, Pot.add, sum_val, List.map_map, foldl_add]
  rfl
theorem Rforce_eq : (raw me ps).Rforce = (full me ps).Rforce := by
  funext R z φ t
  simp only [raw, Rforce, full, Pot.add, sum_Rforce, List.map_map, foldl_sub, sub_eq_add_neg, foldl_add, ← map_neg_sum]
  rfl
theorem zforce_eq : (raw me ps).zforce = (full me ps).zforce := by
  funext R z φ t
  simp only [raw, zforce, full, Pot.add, sum_zforce, List.map_map, foldl_sub, sub_eq_add_neg, foldl_add, ← map_neg_sum]
  rfl
theorem phitorque_eq : (raw me ps).phitorque = (full me ps).phitorque := by
  funext R z φ t
  simp only [raw, phitorque, full, Pot.add, sum_phitorque, List.map_map]
  rw [show (fun P : Pot => P.phitorque R z φ t) ∘ Pair.pot = fun _ => 0 from rfl, map_zero_sum, add_zero]
theorem R2deriv_eq : (raw me ps).R2deriv = (full me ps).R2deriv := by
  funext R z φ t
  simp only [raw, R2deriv, full, Pot.add, sum_R2deriv, List.map_map, foldl_add]
  rfl
theorem z2deriv_eq : (raw me ps).z2deriv = (full me ps).z2deriv := by
  funext R z φ t
  simp only [raw, z2deriv, full, Pot.add, sum_z2deriv, List.map_map, foldl_add]
  rfl
theorem Rzderiv_eq : (raw me ps).Rzderiv = (full me ps).Rzderiv := by
  funext R z φ t
  simp only [raw, Rzderiv, full, Pot.add, sum_Rzderiv, List.map_map, foldl_add]
  rfl
theorem phi2deriv_eq : (raw me ps).phi2deriv = (full me ps).phi2deriv := by
  funext R z φ t
  simp only [raw, phi2deriv, full, Pot.add, sum_phi2deriv, List.map_map]
  rw [show (fun P : Pot => P.phi2deriv R z φ t) ∘ Pair.pot = fun _ => 0 from rfl, map_zero_sum, add_zero]
theorem dens_eq : (raw me ps).dens = (full me ps).dens := by
  funext R z φ t
  simp only [raw, dens, full, Pot.add, sum_dens, List.map_map, foldl_add]
  rfl
end eqs

theorem D_open : AxisOpen (fun R z _ : ℝ => 0 < R ^ 2 + z ^ 2) :=
  ⟨fun _ _ _ h => ev_pos (by fun_prop) h, fun _ _ _ h => ev_pos (by fun_prop) h, fun _ _ _ h => Filter.Eventually.of_forall fun _ => h⟩

theorem pairs_consistent {ps : List Pair} (k : ∀ p ∈ ps, p.Ok) :
    Consistent (Pot.sum (ps.map Pair.pot)) (fun R z _ => 0 < R ^ 2 + z ^ 2) := by
  refine Consistent.sum D_open fun P hP => ?_
  obtain ⟨p, hp, rfl⟩ := List.mem_map.1 hP
  exact pair_consistent (k p hp)

section main
variable {me : Pot} {ps : List Pair} {R z φ t : ℝ}

theorem grad (k : ∀ p ∈ ps, p.Ok) (h : 0 < R ^ 2 + z ^ 2) (g : GradAt me R z φ t) : GradAt (raw me ps) R z φ t := by
  have a := g.add ((pairs_consistent k).grad R z φ t h)
  refine ⟨?_, ?_, ?_⟩
  · rw [val_eq, Rforce_eq]; exact a.dR
  · rw [val_eq, zforce_eq]; exact a.dz
  · rw [val_eq, phitorque_eq]; exact a.dphi

theorem full_hess (k : ∀ p ∈ ps, p.Ok) (h : 0 < R ^ 2 + z ^ 2) (g : GradNear me R z φ t) (hh : HessAt me R z φ t) :
    GradNear (full me ps) R z φ t ∧ HessAt (full me ps) R z φ t := by
  have c := pairs_consistent k
  have n := c.near D_open t (φ := φ) h
  have n' : GradNear (full me ps) R z φ t :=
    ⟨(g.nR.and n.nR).mono fun _ q => q.1.add q.2, (g.nz.and n.nz).mono fun _ q => q.1.add q.2,
      (g.np.and n.np).mono fun _ q => q.1.add q.2⟩
  have a := ForceHess.of_hess g hh
  have b := ForceHess.of_hess n (c.hess _ _ _ _ h)
  refine ⟨n', HessAt.of_force n' ⟨?_, ?_, ?_, ?_, ?_, ?_, ?_, ?_, ?_⟩⟩
  · exact (hd_add a.RR b.RR).congr_deriv (by simp only [full, Pot.add]; ring)
  · exact (hd_add a.Rz b.Rz).congr_deriv (by simp only [full, Pot.add]; ring)
  · exact (hd_add a.Rp b.Rp).congr_deriv (by simp only [full, Pot.add]; ring)
  · exact (hd_add a.zR b.zR).congr_deriv (by simp only [full, Pot.add]; ring)
  · exact (hd_add a.zz b.zz).congr_deriv (by simp only [full, Pot.add]; ring)
  · exact (hd_add a.zp b.zp).congr_deriv (by simp only [full, Pot.add]; ring)
  · exact (hd_add a.pR b.pR).congr_deriv (by simp only [full, Pot.add]; ring)
  · exact (hd_add a.pz b.pz).congr_deriv (by simp only [full, Pot.add]; ring)
  · exact (hd_add a.pp b.pp).congr_deriv (by simp only [full, Pot.add]; ring)

theorem poisson (k : ∀ p ∈ ps, p.Ok) (hR : R ≠ 0) (g : GradNear me R z φ t) (hh : HessAt me R z φ t)
    (q : PoissonAt me R z φ t) : PoissonAt (raw me ps) R z φ t := by
  have h : 0 < R ^ 2 + z ^ 2 := by positivity
  have c := pairs_consistent k
  obtain ⟨n, f⟩ := full_hess k h g hh
  have e : PoissonAt (full me ps) R z φ t := by
    rw [poissonAt_iff n.at f]
    have q1 := (poissonAt_iff g.at hh).1 q
    have q2 := (poissonAt_iff (c.grad _ _ _ _ h) (c.hess _ _ _ _ h)).1 (c.poisson _ _ φ t h hR)
    unfold PoissonAlg at *
    simp only [full, Pot.add]
    linear_combination q1 + q2
  unfold PoissonAt at *
  rw [val_eq, dens_eq]
  exact e

theorem hess4 (k : ∀ p ∈ ps, p.Ok) (h : 0 < R ^ 2 + z ^ 2) (g : GradNear me R z φ t) (hh : HessAt me R z φ t) :
    HasDerivAt (fun x => deriv (fun y => (raw me ps).val y z φ t) x) ((raw me ps).R2deriv R z φ t) R
    ∧ HasDerivAt (fun x => deriv (fun y => (raw me ps).val y x φ t) R) ((raw me ps).Rzderiv R z φ t) z
    ∧ HasDerivAt (fun x => deriv (fun y => (raw me ps).val x y φ t) z) ((raw me ps).Rzderiv R z φ t) R
    ∧ HasDerivAt (fun x => deriv (fun y => (raw me ps).val R y φ t) x) ((raw me ps).z2deriv R z φ t) z
    ∧ HasDerivAt (fun x => deriv (fun y => (raw me ps).val R z y t) x) ((raw me ps).phi2deriv R z φ t) φ := by
  obtain ⟨-, f⟩ := full_hess k h g hh
  rw [val_eq, R2deriv_eq, z2deriv_eq, Rzderiv_eq, phi2deriv_eq]
  exact ⟨f.RR, f.Rz, f.zR, f.zz, f.pp⟩

theorem val_axi (ax : ∀ R z φ t, me.val R z φ t = me.val R z 0 t) (R z φ t : ℝ) :
    (raw me ps).val R z φ t = (raw me ps).val R z 0 t := by
  simp only [raw, evaluate]
  rw [ax R z φ t]

theorem hess (k : ∀ p ∈ ps, p.Ok) (h : 0 < R ^ 2 + z ^ 2) (g : GradNear me R z φ t) (hh : HessAt me R z φ t)
    (ax : ∀ R z φ t, me.val R z φ t = me.val R z 0 t) : HessAt (raw me ps) R z φ t := by
  obtain ⟨a, b, c, d, e⟩ := hess4 k h g hh
  have v := val_axi (ps := ps) ax
  have e1 : (fun x => deriv (fun y => (raw me ps).val y z x t) R) = fun _ => deriv (fun y => (raw me ps).val y z 0 t) R := by
    funext x; simp only [v _ _ x]
  have e2 : (fun x => deriv (fun y => (raw me ps).val R y x t) z) = fun _ => deriv (fun y => (raw me ps).val R y 0 t) z := by
    funext x; simp only [v _ _ x]
  have e3 : (fun x => deriv (fun y => (raw me ps).val x z y t) φ) = fun _ => 0 := by
    funext x
    rw [show (fun y => (raw me ps).val x z y t) = fun _ => (raw me ps).val x z 0 t from funext fun y => v _ _ y _]
    exact deriv_const _ _
  have e4 : (fun x => deriv (fun y => (raw me ps).val R x y t) φ) = fun _ => 0 := by
    funext x
    rw [show (fun y => (raw me ps).val R x y t) = fun _ => (raw me ps).val R x 0 t from funext fun y => v _ _ y _]
    exact deriv_const _ _
  refine ⟨a, b, ?_, c, d, ?_, ?_, ?_, e⟩
  · rw [e1]; exact hd_const _ _
  · rw [e2]; exact hd_const _ _
  · rw [e3]; exact hd_const _ _
  · rw [e4]; exact hd_const _ _

end main

end Verif.DiskExp
