import Verif.Spec.Splitting
import Mathlib.Tactic.Module
import Mathlib.Tactic.Ring
import Mathlib.Tactic.FieldSimp
import Mathlib.Analysis.Calculus.FDeriv.Add
import Mathlib.Analysis.Calculus.FDeriv.Mul
import Mathlib.Analysis.Calculus.FDeriv.Prod
import Mathlib.Analysis.Calculus.FDeriv.Comp
import Mathlib.MeasureTheory.Measure.Lebesgue.Basic
import Mathlib.MeasureTheory.Group.Measure
import Mathlib.MeasureTheory.Measure.Haar.OfBasis
import Mathlib.Data.Matrix.Mul

set_option autoImplicit false

/-!
# Properties of splitting steps
-/

namespace Verif

section
variable {V : Type*} [AddCommGroup V] [Module ℝ V]

theorem Op.run_neg (F : V → ℝ → V) (dt : ℝ) (o : Op) (s : St V) : o.run F (-dt) (o.run F dt s) = s := by
  cases o <;> ext <;> simp [Op.run]

theorem runOps_append (F : V → ℝ → V) (dt : ℝ) (l m : List Op) (s : St V) :
    runOps F dt (l ++ m) s = runOps F dt m (runOps F dt l s) := by
  simp [runOps]

/-- Running a sequence backwards with the reversed step undoes it. -/
theorem runOps_reverse (F : V → ℝ → V) (dt : ℝ) (l : List Op) (s : St V) :
    runOps F (-dt) l.reverse (runOps F dt l s) = s := by
  induction l generalizing s with
  | nil => rfl
  | cons o l ih =>
    rw [List.reverse_cons, runOps_append]
    change runOps F (-dt) [o] (runOps F (-dt) l.reverse (runOps F dt l (o.run F dt s))) = s
    rw [ih]
    exact Op.run_neg F dt o s

theorem runOps_iterate (F : V → ℝ → V) (dt : ℝ) (l : List Op) (n : ℕ) (s : St V) :
    (runOps F dt l)^[n] s = runOps F dt (List.replicate n l).flatten s := by
  induction n generalizing s with
  | zero => rfl
  | succ n ih =>
    rw [Function.iterate_succ_apply, ih, List.replicate_succ, List.flatten_cons, runOps_append]

theorem reverse_flatten_replicate {l : List Op} (h : l.reverse = l) (n : ℕ) :
    (List.replicate n l).flatten.reverse = (List.replicate n l).flatten := by
  rw [List.reverse_flatten, List.map_replicate, List.reverse_replicate, h]

theorem iterate_reversible (F : V → ℝ → V) (dt : ℝ) {l : List Op} (h : l.reverse = l) (n : ℕ) (s : St V) :
    (runOps F (-dt) l)^[n] ((runOps F dt l)^[n] s) = s := by
  rw [runOps_iterate, runOps_iterate]
  conv_lhs => rw [← reverse_flatten_replicate h n]
  rw [reverse_flatten_replicate h n]
  nth_rewrite 1 [← reverse_flatten_replicate h n]
  exact runOps_reverse F dt _ s

/-- An alternating form vanishing on position and force is conserved. -/
theorem runOps_form {W : Type*} [AddCommGroup W] [Module ℝ W] (B : V →ₗ[ℝ] V →ₗ[ℝ] W)
    (hB : ∀ x, B x x = 0) {F : V → ℝ → V} (hF : ∀ q t, B q (F q t) = 0) (dt : ℝ) (l : List Op) (s : St V) :
    B (runOps F dt l s).q (runOps F dt l s).p = B s.q s.p := by
  induction l generalizing s with
  | nil => rfl
  | cons o l ih =>
    refine (ih (o.run F dt s)).trans ?_
    cases o <;> simp [Op.run, hB, hF]

/-- Time after a sequence. -/
theorem runOps_time (F : V → ℝ → V) (dt : ℝ) (l : List Op) (s : St V) :
    (runOps F dt l s).t = s.t + (l.map Op.frac).sum * dt := by
  induction l generalizing s with
  | nil => simp [runOps]
  | cons o l ih =>
    refine (ih (o.run F dt s)).trans ?_
    cases o <;> simp [Op.run, Op.frac] <;> ring

/-- A sequence as a map of phase space. -/
def phase (F : V → ℝ → V) (dt : ℝ) (l : List Op) (t : ℝ) (x : V × V) : V × V :=
  ((runOps F dt l ⟨x.1, x.2, t⟩).q, (runOps F dt l ⟨x.1, x.2, t⟩).p)

end

/-- The symplectic form. -/
def sympl {n : ℕ} (u w : (Fin n → ℝ) × (Fin n → ℝ)) : ℝ := u.1 ⬝ᵥ w.2 - u.2 ⬝ᵥ w.1

theorem phase_deriv {V : Type*} [NormedAddCommGroup V] [NormedSpace ℝ V] {F : V → ℝ → V}
    {DF : V → ℝ → V →L[ℝ] V} (dt : ℝ) (l : List Op) (t : ℝ) (x : V × V)
    (hF : ∀ k ∈ kicks F dt l ⟨x.1, x.2, t⟩, HasFDerivAt (fun q => F q k.2) (DF k.1 k.2) k.1) :
    ∃ L : (V × V) →L[ℝ] (V × V), HasFDerivAt (phase F dt l t) L x ∧
      ∀ (ι : Type) (dq dp : ι → V),
        let r := runOps (fun (q : V × (ι → V)) t => (F q.1 t, fun j => DF q.1 t (q.2 j))) dt l
          ⟨(x.1, dq), (x.2, dp), t⟩;
        r.q = ((phase F dt l t x).1, fun j => (L (dq j, dp j)).1) ∧
        r.p = ((phase F dt l t x).2, fun j => (L (dq j, dp j)).2) := by
  induction l generalizing t x with
  | nil => exact ⟨ContinuousLinearMap.id ℝ _, hasFDerivAt_id x, fun ι dq dp => ⟨rfl, rfl⟩⟩
  | cons o l ih =>
    cases o with
    | drift c =>
      obtain ⟨L, h1, h2⟩ := ih (t + c * dt) (x.1 + (c * dt) • x.2, x.2) hF
      have hd : HasFDerivAt (fun x : V × V => (x.1 + (c * dt) • x.2, x.2))
          ((ContinuousLinearMap.fst ℝ V V + (c * dt) • ContinuousLinearMap.snd ℝ V V).prod
            (ContinuousLinearMap.snd ℝ V V)) x :=
        (hasFDerivAt_fst.add (hasFDerivAt_snd.const_smul (c * dt))).prodMk hasFDerivAt_snd
      have hc := HasFDerivAt.comp x h1 hd
      refine ⟨_, hc, fun ι dq dp => ?_⟩
      obtain ⟨k1, k2⟩ := h2 ι (dq + (c * dt) • dp) dp
      exact ⟨k1, k2⟩
    | kick d =>
      obtain ⟨L, h1, h2⟩ := ih t (x.1, x.2 + (d * dt) • F x.1 t) fun k hk => hF k (List.mem_cons_of_mem _ hk)
      have hf := hF (x.1, t) List.mem_cons_self
      have hk : HasFDerivAt (fun x : V × V => (d * dt) • F x.1 t)
          ((d * dt) • (DF x.1 t).comp (ContinuousLinearMap.fst ℝ V V)) x :=
        (HasFDerivAt.comp (g := fun q => F q t) x hf hasFDerivAt_fst).const_smul (d * dt)
      have hd : HasFDerivAt (fun x : V × V => (x.1, x.2 + (d * dt) • F x.1 t))
          ((ContinuousLinearMap.fst ℝ V V).prod (ContinuousLinearMap.snd ℝ V V
            + (d * dt) • (DF x.1 t).comp (ContinuousLinearMap.fst ℝ V V))) x :=
        hasFDerivAt_fst.prodMk (hasFDerivAt_snd.add hk)
      have hc := HasFDerivAt.comp x h1 hd
      refine ⟨_, hc, fun ι dq dp => ?_⟩
      obtain ⟨k1, k2⟩ := h2 ι dq (dp + (d * dt) • fun j => DF x.1 t (dq j))
      exact ⟨k1, k2⟩

theorem phase_symplectic {n : ℕ} {F : (Fin n → ℝ) → ℝ → Fin n → ℝ}
    {DF : (Fin n → ℝ) → ℝ → (Fin n → ℝ) →L[ℝ] (Fin n → ℝ)} (dt : ℝ) (l : List Op) (t : ℝ)
    (x : (Fin n → ℝ) × (Fin n → ℝ))
    (hF : ∀ k ∈ kicks F dt l ⟨x.1, x.2, t⟩, HasFDerivAt (fun q => F q k.2) (DF k.1 k.2) k.1)
    (hS : ∀ k ∈ kicks F dt l ⟨x.1, x.2, t⟩, ∀ u w, DF k.1 k.2 u ⬝ᵥ w = u ⬝ᵥ DF k.1 k.2 w) :
    ∃ L : ((Fin n → ℝ) × (Fin n → ℝ)) →L[ℝ] ((Fin n → ℝ) × (Fin n → ℝ)),
      HasFDerivAt (phase F dt l t) L x ∧ ∀ u w, sympl (L u) (L w) = sympl u w := by
  induction l generalizing t x with
  | nil => exact ⟨_, hasFDerivAt_id x, fun u w => rfl⟩
  | cons o l ih =>
    cases o with
    | drift c =>
      obtain ⟨L, h1, h2⟩ := ih (t + c * dt) (x.1 + (c * dt) • x.2, x.2) hF hS
      have hd : HasFDerivAt (fun x : (Fin n → ℝ) × (Fin n → ℝ) => (x.1 + (c * dt) • x.2, x.2))
          ((ContinuousLinearMap.fst ℝ (Fin n → ℝ) (Fin n → ℝ) + (c * dt) • ContinuousLinearMap.snd ℝ _ _).prod
            (ContinuousLinearMap.snd ℝ _ _)) x :=
        (hasFDerivAt_fst.add (hasFDerivAt_snd.const_smul (c * dt))).prodMk hasFDerivAt_snd
      have hc := HasFDerivAt.comp x h1 hd
      refine ⟨_, hc, fun u w => ?_⟩
      refine (h2 _ _).trans ?_
      simp [sympl, add_dotProduct, dotProduct_add, dotProduct_comm]
    | kick d =>
      obtain ⟨L, h1, h2⟩ := ih t (x.1, x.2 + (d * dt) • F x.1 t) (fun k hk => hF k (List.mem_cons_of_mem _ hk))
        (fun k hk => hS k (List.mem_cons_of_mem _ hk))
      have hf := hF (x.1, t) List.mem_cons_self
      have hs := hS (x.1, t) List.mem_cons_self
      have hk : HasFDerivAt (fun x : (Fin n → ℝ) × (Fin n → ℝ) => (d * dt) • F x.1 t)
          ((d * dt) • (DF x.1 t).comp (ContinuousLinearMap.fst ℝ _ _)) x :=
        (HasFDerivAt.comp (g := fun q => F q t) x hf hasFDerivAt_fst).const_smul (d * dt)
      have hd : HasFDerivAt (fun x : (Fin n → ℝ) × (Fin n → ℝ) => (x.1, x.2 + (d * dt) • F x.1 t))
          ((ContinuousLinearMap.fst ℝ _ _).prod (ContinuousLinearMap.snd ℝ _ _
            + (d * dt) • (DF x.1 t).comp (ContinuousLinearMap.fst ℝ _ _))) x :=
        hasFDerivAt_fst.prodMk (hasFDerivAt_snd.add hk)
      have hc := HasFDerivAt.comp x h1 hd
      refine ⟨_, hc, fun u w => ?_⟩
      refine (h2 _ _).trans ?_
      simp [sympl, add_dotProduct, dotProduct_add, hs]

open MeasureTheory in
theorem phase_volume {n : ℕ} {F : (Fin n → ℝ) → ℝ → Fin n → ℝ} (hF : ∀ t, Measurable fun q => F q t)
    (dt : ℝ) (l : List Op) (t : ℝ) : MeasurePreserving (phase F dt l t) volume volume := by
  induction l generalizing t with
  | nil => exact MeasurePreserving.id _
  | cons o l ih =>
    cases o with
    | kick d =>
      have hk : MeasurePreserving (fun x : (Fin n → ℝ) × (Fin n → ℝ) => (x.1, x.2 + (d * dt) • F x.1 t))
          volume volume := by
        refine MeasurePreserving.skew_product (f := id) (g := fun a c => c + (d * dt) • F a t)
          (MeasurePreserving.id _) ?_ ?_
        · have := hF t
          exact measurable_snd.add ((this.comp measurable_fst).const_smul (d * dt))
        · exact Filter.Eventually.of_forall fun a => (measurePreserving_add_right volume _).map_eq
      exact (ih t).comp hk
    | drift c =>
      have hk : MeasurePreserving (fun x : (Fin n → ℝ) × (Fin n → ℝ) => (x.1, x.2 + (c * dt) • x.1))
          volume volume := by
        refine MeasurePreserving.skew_product (f := id) (g := fun a c' => c' + (c * dt) • a)
          (MeasurePreserving.id _) ?_ ?_
        · exact measurable_snd.add (measurable_fst.const_smul (c * dt))
        · exact Filter.Eventually.of_forall fun a => (measurePreserving_add_right volume _).map_eq
      have hd := (Measure.measurePreserving_swap (μ := (volume : Measure (Fin n → ℝ)))
        (ν := (volume : Measure (Fin n → ℝ)))).comp
        (hk.comp (Measure.measurePreserving_swap (μ := (volume : Measure (Fin n → ℝ)))
        (ν := (volume : Measure (Fin n → ℝ)))))
      exact (ih (t + c * dt)).comp hd

end Verif
