import Verif.Lemmas.Splitting
import Verif.Lemmas.Symplectic
import Mathlib.LinearAlgebra.CrossProduct

set_option autoImplicit false

/-!
# C22: the symplectic integrators are reversible, symplectic and conserve angular momentum

`leapfrog` (Python and C), `symplec4` and `symplec6`.
-/

open MeasureTheory

namespace Verif
open Symp

section
variable {V : Type*} [AddCommGroup V] [Module ℝ V]

/-- The code of one output interval is a whole number of steps, each the half drift, kick, half drift
at the right times, although the code merges the half drifts of neighbouring steps. -/
theorem C22_steps_leapfrog (F : V → ℝ → V) (dt : ℝ) {ndt : ℤ} (h : 1 ≤ ndt) (s : St V) (b : CBuf V) :
    pyInterval F dt ndt s = (runOps F dt [.drift (1 / 2), .kick 1, .drift (1 / 2)])^[ndt.toNat] s ∧
    (cLeapInterval F dt ndt b).out =
      (runOps F dt [.drift (1 / 2), .kick 1, .drift (1 / 2)])^[ndt.toNat] b.out := by
  have : (ndt - 1).toNat + 1 = ndt.toNat := by omega
  rw [pyInterval_eq, cLeapInterval_eq, this]
  exact ⟨rfl, rfl⟩

/-- The same for the higher-order schemes: drifts and kicks alternate with the fractions given by the
coefficient arrays. -/
theorem C22_steps_symplec (F : V → ℝ → V) (dt : ℝ) {ndt : ℤ} (h : 1 ≤ ndt) (b : CBuf V) :
    (c4Interval F cs4 ds4 dt ndt b).out =
      (runOps F dt (alternate (List.ofFn cs4) (List.ofFn ds4)))^[ndt.toNat] b.out ∧
    (c6Interval F cs6 ds6 dt ndt b).out =
      (runOps F dt (alternate (List.ofFn cs6) (List.ofFn ds6)))^[ndt.toNat] b.out := by
  have : (ndt - 1).toNat + 1 = ndt.toNat := by omega
  rw [c4Interval_eq, c6Interval_eq, this]
  exact ⟨rfl, rfl⟩

theorem C22aux.leap : leapScheme.reverse = leapScheme := rfl
theorem C22aux.four : (scheme4 cs4 ds4).reverse = scheme4 cs4 ds4 := by
  simp [scheme4_eq, cs4, ds4]
theorem C22aux.six : (scheme6 cs6 ds6).reverse = scheme6 cs6 ds6 := by
  simp [scheme6_eq, cs6, ds6]

/-- Python `leapfrog`: an interval followed by one with the reversed step returns exactly to the
start, including the time, for every force. -/
theorem C22_reversible_python (F : V → ℝ → V) (dt : ℝ) (ndt : ℤ) (s : St V) :
    pyInterval F (-dt) ndt (pyInterval F dt ndt s) = s := by
  rw [pyInterval_eq, pyInterval_eq]
  exact iterate_reversible F dt C22aux.leap _ s

/-- The C integrators: code of one output interval for each of the three methods. -/
inductive CMethod : Type where
  | leapfrog
  | symplec4
  | symplec6

/-- The interval code and the scheme belonging to a method. -/
noncomputable def CMethod.interval (F : V → ℝ → V) : CMethod → ℝ → ℤ → CBuf V → CBuf V
  | .leapfrog => cLeapInterval F
  | .symplec4 => c4Interval F cs4 ds4
  | .symplec6 => c6Interval F cs6 ds6

noncomputable def CMethod.scheme : CMethod → List Op
  | .leapfrog => leapScheme
  | .symplec4 => scheme4 cs4 ds4
  | .symplec6 => scheme6 cs6 ds6

theorem C22aux.interval (m : CMethod) (F : V → ℝ → V) (dt : ℝ) (ndt : ℤ) (b : CBuf V) :
    (m.interval F dt ndt b).out = (runOps F dt m.scheme)^[(ndt - 1).toNat + 1] b.out := by
  cases m
  · exact cLeapInterval_eq F dt ndt b
  · exact c4Interval_eq F cs4 ds4 dt ndt b
  · exact c6Interval_eq F cs6 ds6 dt ndt b

theorem C22aux.palindrome (m : CMethod) : m.scheme.reverse = m.scheme := by
  cases m
  · exact C22aux.leap
  · exact C22aux.four
  · exact C22aux.six

theorem C22aux.trunc_neg (x d : ℝ) : trunc (-x / -d) = trunc (x / d) := by rw [neg_div_neg_eq]

theorem C22aux.run (m : CMethod) (F : V → ℝ → V) (errOf : ℝ → ℝ) (junk qo po : V) (nt : ℕ) (hnt : 0 < nt)
    (dt t₀ t₁ : ℝ) :
    (cRun (m.interval F) errOf (fun _ => false) junk qo po nt (some dt) t₀ t₁).1 =
      (List.range nt).map fun i =>
        ((runOps F dt m.scheme)^[(trunc ((t₁ - t₀) / dt) - 1).toNat + 1])^[i] ⟨qo, po, t₀⟩ := by
  simp only [cRun, cStep]
  rw [cOutputs_eq _ _ fun b => C22aux.interval m F dt (trunc ((t₁ - t₀) / dt)) b]
  obtain ⟨n, rfl⟩ := Nat.exists_eq_succ_of_ne_zero hnt.ne'
  exact outputs_eq _ n _

/-- A whole C integration with a given step size, followed by the integration back from the last
row with the reversed step: the rows come out in reverse order, exactly. Any method, force, number of
outputs and step size; `junk` is the content of uninitialised memory. -/
theorem C22_reversible_run (m : CMethod) (F : V → ℝ → V) (errOf errOf' : ℝ → ℝ) (junk junk' qo po : V)
    (nt : ℕ) (hnt : 0 < nt) (dt t₀ t₁ : ℝ) : ∃ s : St V,
    (cRun (m.interval F) errOf (fun _ => false) junk qo po nt (some dt) t₀ t₁).1.getLast? = some s ∧
    (cRun (m.interval F) errOf' (fun _ => false) junk' s.q s.p nt (some (-dt)) s.t
      (s.t - (t₁ - t₀))).1 =
    (cRun (m.interval F) errOf (fun _ => false) junk qo po nt (some dt) t₀ t₁).1.reverse := by
  set N := (trunc ((t₁ - t₀) / dt) - 1).toNat + 1 with hN
  set g := (runOps F dt m.scheme)^[N] with hg
  set g' := (runOps F (-dt) m.scheme)^[N] with hg'
  have hinv : ∀ s, g' (g s) = s := fun s => iterate_reversible F dt (C22aux.palindrome m) N s
  have hinvn : ∀ n s, g'^[n] (g^[n] s) = s := by
    intro n
    induction n with
    | zero => intro s; rfl
    | succ n ih =>
      intro s
      rw [Function.iterate_succ_apply (f := g'), Function.iterate_succ_apply' (f := g), hinv, ih]
  obtain ⟨n, rfl⟩ := Nat.exists_eq_succ_of_ne_zero hnt.ne'
  refine ⟨g^[n] ⟨qo, po, t₀⟩, ?_, ?_⟩
  · rw [C22aux.run _ _ _ _ _ _ _ hnt, List.range_succ]
    simp [hg, hN]
  · rw [C22aux.run _ _ _ _ _ _ _ hnt, C22aux.run _ _ _ _ _ _ _ hnt]
    have e : trunc (((g^[n] ⟨qo, po, t₀⟩).t - (t₁ - t₀) - (g^[n] ⟨qo, po, t₀⟩).t) / -dt)
        = trunc ((t₁ - t₀) / dt) := by
      rw [← C22aux.trunc_neg (t₁ - t₀) dt]
      congr 2
      ring
    rw [e, ← hN, ← hg, ← hg']
    apply List.ext_getElem
    · simp
    · intro i h1 h2
      simp only [List.length_map, List.length_range] at h1
      simp only [List.getElem_map, List.getElem_range, List.getElem_reverse, List.length_map,
        List.length_range]
      have : n + 1 - 1 - i = n - i := by omega
      rw [this]
      conv_lhs => rw [show n = i + (n - i) by omega, Function.iterate_add_apply]
      exact hinvn i _

/-- Any alternating form that vanishes for position and force is conserved exactly by every row of
every run; cross product and `z` component below. -/
theorem C22_form_run {W : Type*} [AddCommGroup W] [Module ℝ W] (B : V →ₗ[ℝ] V →ₗ[ℝ] W)
    (hB : ∀ x, B x x = 0) {F : V → ℝ → V} (hF : ∀ q t, B q (F q t) = 0) (m : CMethod) (errOf : ℝ → ℝ)
    (intr : ℕ → Bool) (junk qo po : V) (nt : ℕ) (dt : Option ℝ) (t₀ t₁ : ℝ) :
    ∀ r ∈ (cRun (m.interval F) errOf intr junk qo po nt dt t₀ t₁).1, B r.q r.p = B qo po := by
  suffices H : ∀ d, ∀ r ∈ (⟨qo, po, t₀⟩ : St V) :: (cOutputs (m.interval F d (trunc ((t₁ - t₀) / d))) intr
      (nt - 1) 0 ⟨qo, po, junk, junk, t₀⟩).1, B r.q r.p = B qo po by
    exact H _
  intro d r hr
  rw [List.mem_cons] at hr
  rcases hr with rfl | hr
  · rfl
  · have hr := (cOutputs_interrupted (m.interval F d (trunc ((t₁ - t₀) / d))) intr (nt - 1) 0
      ⟨qo, po, junk, junk, t₀⟩).1.subset hr
    rw [cOutputs_eq _ _ fun b => C22aux.interval m F d (trunc ((t₁ - t₀) / d)) b] at hr
    have hr := List.mem_cons_of_mem (⟨qo, po, t₀⟩ : St V) hr
    change r ∈ (⟨qo, po, t₀⟩ : St V) :: outputs _ _ ⟨qo, po, t₀⟩ at hr
    rw [outputs_eq, List.mem_map] at hr
    obtain ⟨i, -, rfl⟩ := hr
    rw [← Function.iterate_mul, runOps_iterate]
    exact runOps_form B hB hF d _ _

end

theorem C22aux.python_rows {n : ℕ} {F : (Fin n → ℝ) → ℝ → Fin n → ℝ} {qo po : Fin n → ℝ} {t : List ℝ}
    {rtol atol : ℝ} {rows : List (St (Fin n → ℝ))} (h : pyLeapfrog F qo po t rtol atol = .ok rows)
    {r : St (Fin n → ℝ)} (hr : r ∈ rows) : ∃ t₀ dt k, r = (runOps F dt leapScheme)^[k] ⟨qo, po, t₀⟩ := by
  match t with
  | [] => simp [pyLeapfrog] at h
  | [_] => simp [pyLeapfrog] at h
  | t₀ :: t₁ :: rest =>
    simp only [pyLeapfrog] at h
    split at h
    · cases h
    cases h
    rw [outputs_eq, List.mem_map] at hr
    obtain ⟨i, -, rfl⟩ := hr
    generalize pyEstLoop (pyErr F qo po t₀ rtol atol) (t₁ - t₀) 15 (2 * (t₁ - t₀)) 2 = d
    refine ⟨t₀, d, ((trunc ((t₁ - t₀) / d) - 1).toNat + 1) * i, ?_⟩
    rw [show pyInterval F d (trunc ((t₁ - t₀) / d)) = _ from funext fun s => pyInterval_eq F d _ s,
      Function.iterate_mul]

/-- Python `leapfrog` in a central force field conserves the angular momentum vector exactly in every
row, for every tolerance and every array of times. -/
theorem C22_angular_momentum_python {g : (Fin 3 → ℝ) → ℝ → ℝ} {qo po : Fin 3 → ℝ} {t : List ℝ}
    {rtol atol : ℝ} {rows : List (St (Fin 3 → ℝ))}
    (h : pyLeapfrog (fun q t => g q t • q) qo po t rtol atol = .ok rows) :
    ∀ r ∈ rows, crossProduct r.q r.p = crossProduct qo po := by
  intro r hr
  obtain ⟨t₀, dt, k, rfl⟩ := C22aux.python_rows h hr
  rw [runOps_iterate]
  exact runOps_form crossProduct (fun x => cross_self x) (fun q t => by rw [map_smul, cross_self, smul_zero]) _ _ _

/-- The C integrators in a central force field. -/
theorem C22_angular_momentum (g : (Fin 3 → ℝ) → ℝ → ℝ) (m : CMethod) (errOf : ℝ → ℝ)
    (intr : ℕ → Bool) (junk qo po : Fin 3 → ℝ) (nt : ℕ) (dt : Option ℝ) (t₀ t₁ : ℝ) :
    ∀ r ∈ (cRun (m.interval fun q t => g q t • q) errOf intr junk qo po nt dt t₀ t₁).1,
      crossProduct r.q r.p = crossProduct qo po :=
  C22_form_run crossProduct (fun x => cross_self x) (fun q t => by rw [map_smul, cross_self, smul_zero])
    m errOf intr junk qo po nt dt t₀ t₁

/-- The C integrators with a force without torque about the `z` axis (any axisymmetric potential):
the `z` component is conserved exactly. -/
theorem C22_Lz (F : (Fin 3 → ℝ) → ℝ → Fin 3 → ℝ) (hF : ∀ q t, q 0 * F q t 1 = q 1 * F q t 0) (m : CMethod)
    (errOf : ℝ → ℝ) (intr : ℕ → Bool) (junk qo po : Fin 3 → ℝ) (nt : ℕ) (dt : Option ℝ) (t₀ t₁ : ℝ) :
    ∀ r ∈ (cRun (m.interval F) errOf intr junk qo po nt dt t₀ t₁).1,
      r.q 0 * r.p 1 - r.q 1 * r.p 0 = qo 0 * po 1 - qo 1 * po 0 := by
  intro r hr
  have := C22_form_run (crossProduct.compr₂ (LinearMap.proj (R := ℝ) (φ := fun _ : Fin 3 => ℝ) 2))
    (fun x => by simp [cross_self]) (F := F) (fun q t => by simp [cross_apply, hF]) m errOf intr junk qo po nt dt
    t₀ t₁ r hr
  simpa [cross_apply] using this

/-- Every method preserves the symplectic form at every step: the map taking the initial position and
momentum to those after any number of steps is differentiable with symplectic derivative, for every
force that has a symmetric Jacobian where it is evaluated. -/
theorem C22_symplectic {n : ℕ} (m : CMethod) {F : (Fin n → ℝ) → ℝ → Fin n → ℝ}
    {DF : (Fin n → ℝ) → ℝ → (Fin n → ℝ) →L[ℝ] (Fin n → ℝ)} (dt t : ℝ) (N : ℕ)
    (x : (Fin n → ℝ) × (Fin n → ℝ))
    (hF : ∀ k ∈ kicks F dt (List.replicate N m.scheme).flatten ⟨x.1, x.2, t⟩,
      HasFDerivAt (fun q => F q k.2) (DF k.1 k.2) k.1 ∧ ∀ u w, DF k.1 k.2 u ⬝ᵥ w = u ⬝ᵥ DF k.1 k.2 w) :
    ∃ L : ((Fin n → ℝ) × (Fin n → ℝ)) →L[ℝ] ((Fin n → ℝ) × (Fin n → ℝ)),
      HasFDerivAt (fun x : (Fin n → ℝ) × (Fin n → ℝ) =>
        (((runOps F dt m.scheme)^[N] ⟨x.1, x.2, t⟩).q, ((runOps F dt m.scheme)^[N] ⟨x.1, x.2, t⟩).p)) L x ∧
      ∀ u w : (Fin n → ℝ) × (Fin n → ℝ),
        (L u).1 ⬝ᵥ (L w).2 - (L u).2 ⬝ᵥ (L w).1 = u.1 ⬝ᵥ w.2 - u.2 ⬝ᵥ w.1 := by
  simp only [runOps_iterate]
  exact phase_symplectic dt _ t x (fun k hk => (hF k hk).1) fun k hk => (hF k hk).2

/-- Every method preserves phase-space volume after any number of steps, for every measurable
force. -/
theorem C22_volume {n : ℕ} (m : CMethod) {F : (Fin n → ℝ) → ℝ → Fin n → ℝ}
    (hF : ∀ t, Measurable fun q => F q t) (dt t : ℝ) (N : ℕ) :
    MeasurePreserving (fun x : (Fin n → ℝ) × (Fin n → ℝ) =>
      (((runOps F dt m.scheme)^[N] ⟨x.1, x.2, t⟩).q, ((runOps F dt m.scheme)^[N] ⟨x.1, x.2, t⟩).p))
      volume volume := by
  simp only [runOps_iterate]
  exact phase_volume hF dt _ t

/-- Integration of deviations with the symplectic methods: the base orbit is the one of the plain
integration, and each deviation is the exact derivative of the discrete flow, in the direction of
the initial deviation, after any number of steps. -/
theorem C22_deviation {n : ℕ} (m : CMethod) {F : (Fin n → ℝ) → ℝ → Fin n → ℝ}
    {DF : (Fin n → ℝ) → ℝ → (Fin n → ℝ) →L[ℝ] (Fin n → ℝ)} (dt t : ℝ) (N : ℕ)
    (x : (Fin n → ℝ) × (Fin n → ℝ))
    (hF : ∀ k ∈ kicks F dt (List.replicate N m.scheme).flatten ⟨x.1, x.2, t⟩,
      HasFDerivAt (fun q => F q k.2) (DF k.1 k.2) k.1) :
    ∃ L : ((Fin n → ℝ) × (Fin n → ℝ)) →L[ℝ] ((Fin n → ℝ) × (Fin n → ℝ)),
      HasFDerivAt (fun x : (Fin n → ℝ) × (Fin n → ℝ) =>
        (((runOps F dt m.scheme)^[N] ⟨x.1, x.2, t⟩).q, ((runOps F dt m.scheme)^[N] ⟨x.1, x.2, t⟩).p)) L x ∧
      ∀ (nde : ℕ) (dq dp : Fin nde → Fin n → ℝ),
        let r := (runOps (augForce F fun q t => DF q t) dt m.scheme)^[N] ⟨(x.1, dq), (x.2, dp), t⟩;
        r.q.1 = ((runOps F dt m.scheme)^[N] ⟨x.1, x.2, t⟩).q ∧
        r.p.1 = ((runOps F dt m.scheme)^[N] ⟨x.1, x.2, t⟩).p ∧
        ∀ j, (r.q.2 j, r.p.2 j) = L (dq j, dp j) := by
  simp only [runOps_iterate]
  obtain ⟨L, h1, h2⟩ := phase_deriv (F := F) (DF := DF) dt (List.replicate N m.scheme).flatten t x hF
  refine ⟨L, h1, fun nde dq dp => ?_⟩
  obtain ⟨k1, k2⟩ := h2 (Fin nde) dq dp
  have k1' : (runOps (augForce F fun q t => DF q t) dt (List.replicate N m.scheme).flatten
    ⟨(x.1, dq), (x.2, dp), t⟩).q = _ := k1
  have k2' : (runOps (augForce F fun q t => DF q t) dt (List.replicate N m.scheme).flatten
    ⟨(x.1, dq), (x.2, dp), t⟩).p = _ := k2
  exact ⟨by rw [k1']; rfl, by rw [k2']; rfl, fun j => by rw [k1', k2']⟩

/-- Cases: the oscillator force, which is central, has a symmetric Jacobian and is measurable. -/
example (intr : ℕ → Bool) : ∀ r ∈ (cRun (CMethod.interval (fun (q : Fin 3 → ℝ) _ => (-1 : ℝ) • q) .symplec6)
    (fun _ => 3) intr 0 ![1, 0, 0] ![0, 1, 2] 10 none 0 1).1, crossProduct r.q r.p = ![0, -2, 1] := by
  intro r hr
  rw [C22_angular_momentum (fun _ _ => -1) .symplec6 _ intr 0 ![1, 0, 0] ![0, 1, 2] 10 none 0 1 r hr]
  simp [cross_apply]

example (N : ℕ) (x : (Fin 2 → ℝ) × (Fin 2 → ℝ)) :=
  C22_symplectic .symplec4 (F := fun q _ => -q) (DF := fun _ _ => -ContinuousLinearMap.id ℝ _) (1 / 10) 3 N x
    fun _ _ => ⟨(hasFDerivAt_id _).neg, fun u w => by simp⟩

example (N : ℕ) := C22_volume (n := 2) .leapfrog (F := fun q t => fun i => q i ^ 3 + t)
  (fun t => by fun_prop) (1 / 10) 3 N

end Verif
