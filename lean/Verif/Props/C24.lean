import Verif.Lemmas.BSeries
import Verif.Lemmas.SplitOrder
import Verif.Lemmas.RungeKutta
import Verif.Props.C23
import Mathlib.Analysis.Analytic.Constructions
import Mathlib.Analysis.Analytic.Linear
import Mathlib.Analysis.SpecialFunctions.ExpDeriv
import Mathlib.Analysis.SpecialFunctions.Trigonometric.Deriv

set_option autoImplicit false

/-!
# C24: order of the higher-order integrators, and the steps of the Runge-Kutta integrators

Every method: the local error of one step of the code, for every right-hand side analytic at the
starting point and every solution. The Runge-Kutta drivers: which steps are made between outputs.
-/

open Filter Topology Asymptotics Relation

namespace Verif
open Symp RK

/-! ### Order of the Runge-Kutta methods -/

theorem C24aux.rk4 : rk4Tableau.HasOrder 4 := hasOrder_of_all _ (by decide +kernel)
theorem C24aux.rk6 : rk6Tableau.HasOrder 6 := hasOrder_of_all _ (by decide +kernel)
theorem C24aux.dop5 : dop5Tableau.HasOrder 5 := hasOrder_of_all _ (by decide +kernel)
theorem C24aux.dop4 : dop4Tableau.HasOrder 4 := hasOrder_of_all _ (by decide +kernel)

theorem C24aux.explicit {s : ℕ} {T : Tableau ℚ Unit s} (h : ∀ i j, i ≤ j → T.A () i j = 0) :
    ∀ c i j, i ≤ j → T.cast.A c i j = 0 := fun _ i j hij => by
  simp only [Tableau.cast, Rat.cast_eq_zero]
  exact h i j hij

section
variable {V : Type*} [NormedAddCommGroup V] [NormedSpace ℝ V]

theorem C24aux.order {s q : ℕ} {T : Tableau ℚ Unit s} (hT : ∀ i j, i ≤ j → T.A () i j = 0)
    (ho : T.HasOrder q) {f : ℝ → V → V} {t : ℝ} {y : ℝ → V}
    (hf : AnalyticAt ℝ (fun x : ℝ × V => f x.1 x.2) (t, y t))
    (hy : ∀ᶠ s in 𝓝 t, HasDerivAt y (f s (y s)) s) {z : ℝ → V}
    (hz : ∀ h, T.cast.IsStep (withTime f) h (t, y t) (t + h, z h)) :
    (fun h => z h - y (t + h)) =O[𝓝 0] fun h : ℝ => h ^ (q + 1) := by
  have htend : Tendsto (fun h : ℝ => t + h) (𝓝 0) (𝓝 t) := by
    have : Tendsto (fun h : ℝ => t + h) (𝓝 0) (𝓝 (t + 0)) := (continuous_const.add continuous_id).tendsto 0
    rwa [add_zero] at this
  have key := order_of_conditions (f := withTime f) (y := (t, y t)) (T := T.cast) (q := q)
    (fun _ => analyticAt_const.prod hf) (C24aux.explicit hT) ho.cast hz (u := fun h => (t + h, y (t + h)))
    (by simp) (by
      filter_upwards [htend.eventually hy] with h hh
      have h1 : HasDerivAt (fun h => t + h) 1 h := (hasDerivAt_id h).const_add t
      have h2 : HasDerivAt (fun h => y (t + h)) (f (t + h) (y (t + h))) h := by
        have := hh.scomp h h1
        rwa [one_smul] at this
      refine (h1.prodMk h2).congr_deriv ?_
      simp [withTime])
  refine IsBigO.trans (IsBigO.of_bound 1 (Eventually.of_forall fun h => ?_)) key
  rw [one_mul]
  exact (norm_snd_le (((t + h, z h) : ℝ × V) - (t + h, y (t + h))))

/-- `rk4_c`: the error of one step is of fifth order in the step. -/
theorem C24_rk4_order {f : ℝ → V → V} {t : ℝ} {y : ℝ → V}
    (hf : AnalyticAt ℝ (fun x : ℝ × V => f x.1 x.2) (t, y t))
    (hy : ∀ᶠ s in 𝓝 t, HasDerivAt y (f s (y s)) s) :
    (fun h => rk4Onestep f t h (y t) (y t) - y (t + h)) =O[𝓝 0] fun h : ℝ => h ^ 5 :=
  C24aux.order (by decide +kernel) C24aux.rk4 hf hy fun h => rk4_isStep f t h (y t)

/-- `rk6_c`: of seventh order. -/
theorem C24_rk6_order {f : ℝ → V → V} {t : ℝ} {y : ℝ → V}
    (hf : AnalyticAt ℝ (fun x : ℝ × V => f x.1 x.2) (t, y t))
    (hy : ∀ᶠ s in 𝓝 t, HasDerivAt y (f s (y s)) s) :
    (fun h => rk6Onestep f t h (y t) (y t) - y (t + h)) =O[𝓝 0] fun h : ℝ => h ^ 7 :=
  C24aux.order (by decide +kernel) C24aux.rk6 hf hy fun h => rk6_isStep f t h (y t)

/-- `dopr54_c`: the value kept has an error of sixth order; the error estimate is the error of a
method of order four, up to the former, and the derivative saved for the next step is the one at the new
point. -/
theorem C24_dopr54_order {f : ℝ → V → V} {t : ℝ} {y : ℝ → V}
    (hf : AnalyticAt ℝ (fun x : ℝ × V => f x.1 x.2) (t, y t))
    (hy : ∀ᶠ s in 𝓝 t, HasDerivAt y (f s (y s)) s) :
    ((fun h => (dopStages f t h (y t) (f t (y t))).1 - y (t + h)) =O[𝓝 0] fun h : ℝ => h ^ 6) ∧
    ((fun h => (dopStages f t h (y t) (f t (y t))).1 - (dopStages f t h (y t) (f t (y t))).2.1 - y (t + h))
      =O[𝓝 0] fun h : ℝ => h ^ 5) ∧
    ((fun h => (dopStages f t h (y t) (f t (y t))).2.1) =O[𝓝 0] fun h : ℝ => h ^ 5) ∧
    ∀ h, (dopStages f t h (y t) (f t (y t))).2.2 = f (t + h) (dopStages f t h (y t) (f t (y t))).1 := by
  have h1 := C24aux.order (by decide +kernel) C24aux.dop5 hf hy fun h => (dop_isStep f t h (y t)).1
  have h2 := C24aux.order (by decide +kernel) C24aux.dop4 hf hy fun h => (dop_isStep f t h (y t)).2.1
  refine ⟨h1, h2, ?_, fun h => (dop_isStep f t h (y t)).2.2⟩
  have h3 : (fun h : ℝ => h ^ 6) =O[𝓝 0] fun h : ℝ => h ^ 5 := by
    refine IsBigO.of_bound 1 ?_
    filter_upwards [Metric.ball_mem_nhds (0 : ℝ) one_pos] with h hh
    rw [Metric.mem_ball, dist_zero_right] at hh
    rw [norm_pow, norm_pow, one_mul]
    exact pow_le_pow_of_le_one (norm_nonneg _) hh.le (by norm_num)
  refine ((h1.trans h3).sub h2).congr_left fun h => ?_
  abel

/-! ### Order of the symplectic methods -/

/-- Order of a method. -/
def CMethod.order : CMethod → ℕ
  | .leapfrog => 2
  | .symplec4 => 4
  | .symplec6 => 6

/-- Rounding of the coefficient arrays as it enters the order conditions. -/
noncomputable def CMethod.rounding : CMethod → ℝ
  | .leapfrog => 0
  | .symplec4 => 1 / 10 ^ 15
  | .symplec6 => 1 / 10 ^ 14

def C24aux.ops2 : List (Part × ℚ) := [(.drift, 1 / 2), (.kick, 1), (.drift, 1 / 2)]
def C24aux.ops4 : List (Part × ℚ) := [(.drift, 0.6756035959798289), (.kick, 1.3512071919596578),
  (.drift, -0.1756035959798288), (.kick, -1.7024143839193153), (.drift, -0.1756035959798288),
  (.kick, 1.3512071919596578), (.drift, 0.6756035959798289)]
def C24aux.ops6 : List (Part × ℚ) := [(.drift, 0.392256805238780), (.kick, 0.784513610477560),
  (.drift, 0.510043411918458), (.kick, 0.235573213359357), (.drift, -0.471053385409758),
  (.kick, -0.117767998417887e1), (.drift, 0.687531682525198e-1), (.kick, 0.131518632068391e1),
  (.drift, 0.687531682525198e-1), (.kick, -0.117767998417887e1), (.drift, -0.471053385409758),
  (.kick, 0.235573213359357), (.drift, 0.510043411918458), (.kick, 0.784513610477560),
  (.drift, 0.392256805238780)]

theorem C24aux.leap_eq : leapScheme = C24aux.ops2.map toOp := by
  simp [leapScheme, alternate, C24aux.ops2, toOp]
theorem C24aux.four_eq : scheme4 cs4 ds4 = C24aux.ops4.map toOp := by
  simp [scheme4_eq, cs4, ds4, C24aux.ops4, toOp]
theorem C24aux.six_eq : scheme6 cs6 ds6 = C24aux.ops6.map toOp := by
  simp [scheme6_eq, cs6, ds6, C24aux.ops6, toOp]

theorem C24aux.conditions (m : CMethod) (t : Tree Part) (h : t.Contributes 0) (ht : t.size ≤ m.order) :
    |(splitTableau m.scheme).defect t| ≤ m.rounding := by
  cases m
  · have := split_of_all (p := 2) (ε := 0) C24aux.ops2 (by decide +kernel) t h ht
    rw [← C24aux.leap_eq] at this
    exact this.trans (by simp [CMethod.rounding])
  · have := split_of_all (p := 4) (ε := 1 / 10 ^ 15) C24aux.ops4 (by decide +kernel) t h ht
    rw [← C24aux.four_eq] at this
    exact this.trans (by simp [CMethod.rounding])
  · have := split_of_all (p := 6) (ε := 1 / 10 ^ 14) C24aux.ops6 (by decide +kernel) t h ht
    rw [← C24aux.six_eq] at this
    exact this.trans (by simp [CMethod.rounding])

/-- One step of the C code of a symplectic method, with any content of the work arrays: position,
momentum and time differ from those of the solution by the order of the method plus one, and by the
rounding of the coefficients to sixteen digits. -/
theorem C24_symplectic_order (m : CMethod) {F : V → ℝ → V} {t : ℝ} {q p : ℝ → V}
    (hF : AnalyticAt ℝ (fun x : V × ℝ => F x.1 x.2) (q t, t))
    (hq : ∀ᶠ s in 𝓝 t, HasDerivAt q (p s) s) (hp : ∀ᶠ s in 𝓝 t, HasDerivAt p (F (q s) s) s) :
    ∃ C, ∀ᶠ h in 𝓝 (0 : ℝ), ∀ junk junk' : V,
      let r := m.interval F h 1 ⟨q t, p t, junk, junk', t⟩;
      ‖r.qo - q (t + h)‖ ≤ C * (m.rounding * |h| + |h| ^ (m.order + 1)) ∧
      ‖r.po - p (t + h)‖ ≤ C * (m.rounding * |h| + |h| ^ (m.order + 1)) ∧
      |r.tc - (t + h)| ≤ C * (m.rounding * |h| + |h| ^ (m.order + 1)) := by
  have htend : Tendsto (fun h : ℝ => t + h) (𝓝 0) (𝓝 t) := by
    have : Tendsto (fun h : ℝ => t + h) (𝓝 0) (𝓝 (t + 0)) := (continuous_const.add continuous_id).tendsto 0
    rwa [add_zero] at this
  have hshift : ∀ {g : ℝ → V} {g' : V} {h : ℝ}, HasDerivAt g g' (t + h) → HasDerivAt (fun h => g (t + h)) g' h := by
    intro g g' h hg
    have := hg.scomp h ((hasDerivAt_id h).const_add t)
    rwa [one_smul] at this
  obtain ⟨C, hC⟩ := split_local_error (F := F) (s := ⟨q t, p t, t⟩) hF (l := m.scheme) (n := m.order)
    (ε := m.rounding) (by cases m <;> simp only [CMethod.rounding] <;> positivity) (C24aux.conditions m)
    (q := fun h => q (t + h)) (p := fun h => p (t + h)) (by simp) (by simp)
    (by filter_upwards [htend.eventually hq] with h hh using hshift hh)
    (by filter_upwards [htend.eventually hp] with h hh using hshift hh)
  refine ⟨C, ?_⟩
  filter_upwards [hC] with h hh junk junk'
  have e := C22aux.interval m F h 1 ⟨q t, p t, junk, junk', t⟩
  have e1 : (m.interval F h 1 ⟨q t, p t, junk, junk', t⟩).out = runOps F h m.scheme ⟨q t, p t, t⟩ := e
  have eq : (m.interval F h 1 ⟨q t, p t, junk, junk', t⟩).qo = (runOps F h m.scheme ⟨q t, p t, t⟩).q := by
    rw [← e1]; rfl
  have ep : (m.interval F h 1 ⟨q t, p t, junk, junk', t⟩).po = (runOps F h m.scheme ⟨q t, p t, t⟩).p := by
    rw [← e1]; rfl
  have et : (m.interval F h 1 ⟨q t, p t, junk, junk', t⟩).tc = (runOps F h m.scheme ⟨q t, p t, t⟩).t := by
    rw [← e1]; rfl
  simp only [eq, ep, et]
  exact hh

/-- The Python leapfrog: third order exactly. -/
theorem C24_python_order {F : V → ℝ → V} {t : ℝ} {q p : ℝ → V}
    (hF : AnalyticAt ℝ (fun x : V × ℝ => F x.1 x.2) (q t, t))
    (hq : ∀ᶠ s in 𝓝 t, HasDerivAt q (p s) s) (hp : ∀ᶠ s in 𝓝 t, HasDerivAt p (F (q s) s) s) :
    ∃ C, ∀ᶠ h in 𝓝 (0 : ℝ),
      ‖(pyInterval F h 1 ⟨q t, p t, t⟩).q - q (t + h)‖ ≤ C * |h| ^ 3 ∧
      ‖(pyInterval F h 1 ⟨q t, p t, t⟩).p - p (t + h)‖ ≤ C * |h| ^ 3 ∧
      (pyInterval F h 1 ⟨q t, p t, t⟩).t = t + h := by
  obtain ⟨C, hC⟩ := C24_symplectic_order .leapfrog hF hq hp
  refine ⟨C, ?_⟩
  filter_upwards [hC] with h hh
  have e1 := pyInterval_eq F h 1 ⟨q t, p t, t⟩
  have e2 := cLeapInterval_eq F h 1 ⟨q t, p t, 0, 0, t⟩
  have e : pyInterval F h 1 ⟨q t, p t, t⟩ = (cLeapInterval F h 1 ⟨q t, p t, 0, 0, t⟩).out := e1.trans e2.symm
  obtain ⟨h1, h2, h3⟩ := hh 0 0
  simp only [CMethod.rounding, zero_mul, zero_add, CMethod.order] at h1 h2 h3
  rw [e]
  refine ⟨h1, h2, ?_⟩
  simp only [CBuf.out, cLeapInterval]
  rfl

end

/-- The coefficient arrays are palindromic, and sum to one up to the rounding of their decimals. -/
theorem C24_coefficients :
    (∀ i, cs4 i.rev = cs4 i) ∧ (∀ i, ds4 i.rev = ds4 i) ∧ (∀ i, cs6 i.rev = cs6 i) ∧ (∀ i, ds6 i.rev = ds6 i) ∧
    |∑ i, cs4 i - 1| ≤ 1 / 10 ^ 15 ∧ |∑ i, ds4 i - 1| ≤ 1 / 10 ^ 15 ∧
    |∑ i, cs6 i - 1| ≤ 1 / 10 ^ 14 ∧ |∑ i, ds6 i - 1| ≤ 1 / 10 ^ 14 := by
  refine ⟨?_, ?_, ?_, ?_, ?_, ?_, ?_, ?_⟩
  · intro i; fin_cases i <;> simp [cs4, Fin.rev]
  · intro i; fin_cases i <;> simp [ds4, Fin.rev]
  · intro i; fin_cases i <;> simp [cs6, Fin.rev]
  · intro i; fin_cases i <;> simp [ds6, Fin.rev]
  all_goals
    simp [cs4, ds4, cs6, ds6, Fin.sum_univ_succ]
    rw [abs_le]
    constructor <;> norm_num

/-- The decimals of the arrays do not sum to one exactly, so with exact arithmetic the variable `to` of
`symplec4` and `symplec6` drifts away from the requested times. -/
theorem C24_exact_sum_fails : ∑ i, cs4 i ≠ 1 ∧ ∑ i, ds4 i ≠ 1 ∧ ∑ i, cs6 i ≠ 1 ∧ ∑ i, ds6 i ≠ 1 := by
  refine ⟨?_, ?_, ?_, ?_⟩ <;> simp [cs4, ds4, cs6, ds6, Fin.sum_univ_succ] <;> norm_num

/-! ### The drivers of `rk4_c` and `rk6_c` -/

section
variable {V : Type*} [AddCommGroup V] [Module ℝ V]

/-- The two fixed-step methods. -/
inductive RKMethod : Type where
  | rk4
  | rk6

/-- Code of one step, and the exponent in the estimate of the step size. -/
noncomputable def RKMethod.step (f : ℝ → V → V) : RKMethod → ℝ → ℝ → V → V → V
  | .rk4 => rk4Onestep f
  | .rk6 => rk6Onestep f

noncomputable def RKMethod.ex : RKMethod → ℝ
  | .rk4 => 1 / 5
  | .rk6 => 1 / 7

/-- A step of the method as the tableau of the literature gives it. -/
def RKMethod.IsStep (f : ℝ → V → V) : RKMethod → ℝ → ℝ × V → ℝ × V → Prop
  | .rk4 => rk4Tableau.cast.IsStep (withTime f)
  | .rk6 => rk6Tableau.cast.IsStep (withTime f)

/-- `M` steps of size `h` one after the other. -/
def RKMethod.Steps (m : RKMethod) (f : ℝ → V → V) (h : ℝ) : ℕ → ℝ × V → ℝ × V → Prop
  | 0, x, x' => x' = x
  | M + 1, x, x' => ∃ w, m.IsStep f h x w ∧ w.1 = x.1 + h ∧ m.Steps f h M w x'

theorem C24aux.steps (m : RKMethod) (f : ℝ → V → V) (h : ℝ) (M : ℕ) (x : ℝ × V) :
    m.Steps f h M x ((stepMap (m.step f) h)^[M] x) := by
  induction M generalizing x with
  | zero => rfl
  | succ M ih =>
    refine ⟨stepMap (m.step f) h x, ?_, rfl, ?_⟩
    · cases m
      · exact rk4_isStep f x.1 h x.2
      · exact rk6_isStep f x.1 h x.2
    · rw [Function.iterate_succ_apply]
      exact ih _

theorem C24aux.time (onestep : ℝ → ℝ → V → V → V) (h : ℝ) (M : ℕ) (x : ℝ × V) :
    ((stepMap onestep h)^[M] x).1 = x.1 + M * h := by
  induction M generalizing x with
  | zero => simp
  | succ M ih =>
    rw [Function.iterate_succ_apply, ih]
    simp only [stepMap]
    push_cast
    ring

theorem C24aux.run (m : RKMethod) (f : ℝ → V → V) (errOf : ℝ → ℝ) (yo : V) (nt : ℕ) (hnt : 0 < nt)
    (t₀ t₁ : ℝ) (dt : Option ℝ) (intr : ℕ → Bool) (hI : ∀ i < nt - 1, intr i = false) :
    rkRun (m.step f) errOf m.ex intr yo nt dt t₀ t₁ = ((List.range nt).map fun i =>
      ((stepMap (m.step f) (rkStep errOf m.ex (t₁ - t₀) dt))^[(trunc ((t₁ - t₀) /
        rkStep errOf m.ex (t₁ - t₀) dt) - 1).toNat + 1])^[i] (t₀, yo), 0) := by
  simp only [rkRun]
  generalize rkStep errOf m.ex (t₁ - t₀) dt = d
  obtain ⟨h1, h2, h3, h4⟩ := rkOutputs_interrupted (rkInterval (m.step f) d (trunc ((t₁ - t₀) / d))) intr (nt - 1) 0
    ⟨yo, yo, t₀⟩
  have h0 := h2.2 fun j hj => by simpa using hI j hj
  obtain ⟨n, rfl⟩ := Nat.exists_eq_succ_of_ne_zero hnt.ne'
  have := rkOutputs_eq (m.step f) d (trunc ((t₁ - t₀) / d)) n 0 (t₀, yo)
  refine Prod.ext ?_ h0
  rw [h3 h0]
  exact this

/-- `rk4_c` and `rk6_c` choosing their step, on evenly spaced times: one row per time, the first the
initial condition, row `i` at time `t_i` exactly, neighbouring rows exactly `M` steps of `1/M` of the
spacing apart. `M` is below ten thousand; the estimated error, to the power of the code, is within the
tolerance or the division it asks for would exceed ten thousand. -/
theorem C24_rk_grid (m : RKMethod) (f : ℝ → V → V) (errOf : ℝ → ℝ) (yo : V) (nt : ℕ) (hnt : 0 < nt)
    (t₀ : ℝ) {h : ℝ} (hh : h ≠ 0) (intr : ℕ → Bool) (hI : ∀ i < nt - 1, intr i = false) : ∃ rows,
    rkRun (m.step f) errOf m.ex intr yo nt none t₀ (t₀ + h) = (rows, 0) ∧
    rows.map Prod.fst = evenTimes t₀ h nt ∧ rows[0]? = some (t₀, yo) ∧
    ∃ M : ℕ, 0 < M ∧ M < 10000 ∧ (errOf (h / M) ^ m.ex ≤ 1 ∨ 10000 ≤ M * ⌈errOf (h / M) ^ m.ex⌉) ∧
      List.IsChain (m.Steps f (h / M) M) rows := by
  have hr := C24aux.run m f errOf yo nt hnt t₀ (t₀ + h) none intr hI
  obtain ⟨M, h1, h2, h3, h4⟩ := rkEstLoop_run errOf m.ex hh
  have hM : (M : ℝ) ≠ 0 := by positivity
  simp only [rkStep] at hr
  rw [add_sub_cancel_left, h3, trunc_div hh h1, show ((M : ℤ) - 1).toNat + 1 = M by omega] at hr
  refine ⟨_, hr, ?_, ?_, M, h1, h2, h4, ?_⟩
  · rw [List.map_map, evenTimes]
    refine List.map_congr_left fun i _ => ?_
    rw [Function.comp_apply, ← Function.iterate_mul, C24aux.time]
    push_cast
    field_simp
  · rw [List.getElem?_map, List.getElem?_range hnt]; rfl
  · rw [List.isChain_iff_getElem]
    intro i hi
    simp only [List.getElem_map, List.getElem_range]
    rw [Function.iterate_succ_apply']
    exact C24aux.steps m f (h / M) M _

/-- A step given by the caller that divides the spacing is used as given. -/
theorem C24_rk_given_step (m : RKMethod) (f : ℝ → V → V) (errOf : ℝ → ℝ) (yo : V) (nt : ℕ) (hnt : 0 < nt)
    (t₀ : ℝ) {dt : ℝ} (hdt : dt ≠ 0) (M : ℕ) (hM : 0 < M) (intr : ℕ → Bool) (hI : ∀ i < nt - 1, intr i = false) :
    ∃ rows, rkRun (m.step f) errOf m.ex intr yo nt (some dt) t₀ (t₀ + M * dt) = (rows, 0) ∧
    rows.map Prod.fst = evenTimes t₀ (M * dt) nt ∧ rows[0]? = some (t₀, yo) ∧
    List.IsChain (m.Steps f dt M) rows := by
  have hr := C24aux.run m f errOf yo nt hnt t₀ (t₀ + M * dt) (some dt) intr hI
  simp only [rkStep] at hr
  have e : (t₀ + M * dt - t₀) / dt = M := by field_simp; ring
  rw [e, trunc_natCast, show ((M : ℤ) - 1).toNat + 1 = M by omega] at hr
  refine ⟨_, hr, ?_, ?_, ?_⟩
  · rw [List.map_map, evenTimes]
    refine List.map_congr_left fun i _ => ?_
    rw [Function.comp_apply, ← Function.iterate_mul, C24aux.time]
    push_cast
    ring
  · rw [List.getElem?_map, List.getElem?_range hnt]; rfl
  · rw [List.isChain_iff_getElem]
    intro i hi
    simp only [List.getElem_map, List.getElem_range]
    rw [Function.iterate_succ_apply']
    exact C24aux.steps m f dt M _

/-- An interrupt cuts the rows short and is reported. -/
theorem C24_rk_interrupt (m : RKMethod) (f : ℝ → V → V) (errOf : ℝ → ℝ) (intr : ℕ → Bool) (yo : V) (nt : ℕ)
    (dt : Option ℝ) (t₀ t₁ : ℝ) :
    (rkRun (m.step f) errOf m.ex intr yo nt dt t₀ t₁).1 <+:
      (rkRun (m.step f) errOf m.ex (fun _ => false) yo nt dt t₀ t₁).1 ∧
    ((rkRun (m.step f) errOf m.ex intr yo nt dt t₀ t₁).2 = -10 ↔ ∃ j < nt - 1, intr j = true) ∧
    ((rkRun (m.step f) errOf m.ex intr yo nt dt t₀ t₁).2 ≠ -10 →
      rkRun (m.step f) errOf m.ex intr yo nt dt t₀ t₁ = rkRun (m.step f) errOf m.ex (fun _ => false) yo nt dt t₀ t₁) := by
  simp only [rkRun]
  generalize rkStep errOf m.ex (t₁ - t₀) dt = d
  obtain ⟨h1, h2, h3, h4⟩ := rkOutputs_interrupted (rkInterval (m.step f) d (trunc ((t₁ - t₀) / d))) intr (nt - 1) 0
    ⟨yo, yo, t₀⟩
  refine ⟨List.cons_prefix_cons.2 ⟨rfl, h1⟩, ?_, ?_⟩
  · constructor
    · intro h
      by_contra hne
      push Not at hne
      have := h2.2 fun j hj => by
        have := hne j hj
        rw [zero_add]
        simpa using this
      rw [this] at h
      norm_num at h
    · rintro ⟨j, hj, hj'⟩
      refine h4.resolve_left fun h0 => ?_
      have := h2.1 h0 j hj
      rw [zero_add, hj'] at this
      cases this
  · intro h
    rw [h3 (h4.resolve_right h)]

/-! ### The driver of `dopr54_c` -/

/-- `dopr54_c` on evenly spaced times, in either direction, with its own first step or one given with the
right sign: the adaptive loop ends for every right-hand side and every error norm, with one row per time,
row `i` at time `t_i` exactly. Between rows there are only steps of the fifth order method in the direction
of the integration. If the code returned is 0, the difference from the embedded method was below
`(0.85 √2)^5` (about 2.5 tolerances) in every step; the only other code is 1. -/
theorem C24_dopr54_run (f : ℝ → V → V) {norm : V → V → ℝ} (hnorm : ∀ y e, 0 ≤ norm y e) (errOf : ℝ → ℝ)
    (yo : V) (nt : ℕ) (hnt : 0 < nt) (t₀ : ℝ) {h σ : ℝ} (hσ : σ = 1 ∨ σ = -1) (hh : 0 < σ * h) (dt_one : Option ℝ)
    (hdt : ∀ d ∈ dt_one, 0 < σ * d) :
    ∃ rows e, (∀ rows' e', DopRun f norm errOf (fun _ => false) yo nt dt_one t₀ (t₀ + h) rows' e' ↔
        rows' = rows ∧ e' = e) ∧
      rows.map Prod.fst = evenTimes t₀ h nt ∧ rows[0]? = some (t₀, yo) ∧
      List.IsChain (ReflTransGen (DopFree f σ)) rows ∧ (e = 0 ∨ e = 1) ∧
      (e = 0 → List.IsChain (ReflTransGen (DopOk f norm σ)) rows) := by
  have hstep : 0 < σ * rkStep errOf (1 / 5) h dt_one := by
    cases dt_one with
    | some d => exact hdt d rfl
    | none =>
      have hh0 : h ≠ 0 := by rintro rfl; simp at hh
      obtain ⟨k, h1, h2, h3, h4⟩ := rkEstLoop_run errOf (1 / 5) hh0
      simp only [rkStep, h3]
      rw [← mul_div_assoc]
      positivity
  obtain ⟨n, rfl⟩ := Nat.exists_eq_succ_of_ne_zero hnt.ne'
  obtain ⟨rows, e, k1, k2, k3, k4, k5⟩ := dop_outputs f norm hnorm hσ hh n 0
    (dopInit f errOf yo dt_one t₀ (t₀ + h)) (by simp only [dopInit, add_sub_cancel_left]; exact hstep) rfl
  refine ⟨(t₀, yo) :: rows, e, ?_, k2, rfl, k3, ?_, ?_⟩
  · intro rows' e'
    simp only [DopRun, add_sub_cancel_left, Nat.succ_sub_one]
    constructor
    · rintro ⟨rs, rfl, hr⟩
      obtain ⟨rfl, rfl⟩ := (k1 _ _).1 hr
      exact ⟨rfl, rfl⟩
    · rintro ⟨rfl, rfl⟩
      exact ⟨rows, rfl, (k1 _ _).2 ⟨rfl, rfl⟩⟩
  · rcases k4 with h' | h'
    · left; exact h'
    · right; rw [h'.2]; rfl
  · intro he
    exact k5 rfl he

/-- An interrupt cuts the rows short and is reported. -/
theorem C24_dopr54_interrupt (f : ℝ → V → V) (norm : V → V → ℝ) (errOf : ℝ → ℝ) (intr : ℕ → Bool)
    (yo : V) (nt : ℕ) (t₀ t₁ : ℝ) (dt_one : Option ℝ) {rows₀ : List (ℝ × V)} {e₀ : ℤ}
    (h₀ : DopRun f norm errOf (fun _ => false) yo nt dt_one t₀ t₁ rows₀ e₀) :
    ∃ rows e, DopRun f norm errOf intr yo nt dt_one t₀ t₁ rows e ∧ rows <+: rows₀ ∧
      ((∀ j < nt - 1, intr j = false) → rows = rows₀ ∧ e = e₀) ∧
      ∀ j < nt - 1, intr j = true → rows.length ≤ j + 1 ∧ e = -10 := by
  obtain ⟨rs, rfl, h⟩ := h₀
  obtain ⟨rows, e, h1, h2, h3, h4⟩ := dop_interrupted f norm intr h
  refine ⟨(t₀, yo) :: rows, e, ⟨rows, rfl, h1⟩, List.cons_prefix_cons.2 ⟨rfl, h2⟩, ?_, ?_⟩
  · intro hi
    obtain ⟨rfl, rfl⟩ := h3 fun j hj => by rw [zero_add]; exact hi j hj
    exact ⟨rfl, rfl⟩
  · intro j hj hj'
    obtain ⟨a, b⟩ := h4 j hj (by rw [zero_add]; exact hj')
    exact ⟨by simpa using a, b⟩

/-- Steps with an estimated error above the tolerance are accepted: 2 is more than 1. -/
theorem C24_tolerance_fails : 0 ≤ dopPow2 2 := by
  rw [dopPow2_nonneg (by norm_num)]
  have h2 : Real.sqrt 2 ^ 2 = 2 := Real.sq_sqrt (by norm_num)
  have h3 : (1.4 : ℝ) ≤ Real.sqrt 2 := Real.le_sqrt_of_sq_le (by norm_num)
  have : (0.85 * Real.sqrt 2) ^ 5 = 0.85 ^ 5 * (Real.sqrt 2 ^ 2) ^ 2 * Real.sqrt 2 := by ring
  rw [this, h2]
  nlinarith

/-- A first step given with the wrong sign passes the check of `Orbit.integrate`, but the loop for the
first output then never ends, whatever the force. -/
theorem C24_wrong_sign_fails (f : ℝ → V → V) (norm : V → V → ℝ) (errOf : ℝ → ℝ) (yo : V) (n : ℕ) :
    checkIntegrateDt 0 1 (some (-1 / 2)) ∧
    ¬ ∃ rows e, DopRun f norm errOf (fun _ => false) yo (n + 2) (some (-1 / 2)) 0 1 rows e := by
  constructor
  · simp only [checkIntegrateDt]
    rw [show ((1 : ℝ) - 0) / (-1 / 2) = ((-2 : ℤ) : ℝ) by norm_num, round_intCast]
    norm_num
  rintro ⟨rows, e, rs, rfl, h⟩
  have inv : ∀ k, ((dopBody f norm (1 - 0) (-1 / 2) 0)^[k] (dopInit f errOf yo (some (-1 / 2)) 0 1)).tc ≤ 0 ∧
      ((dopBody f norm (1 - 0) (-1 / 2) 0)^[k] (dopInit f errOf yo (some (-1 / 2)) 0 1)).dt_one < 0 := by
    intro k
    induction k with
    | zero => simp [dopInit, rkStep]; norm_num
    | succ k ih =>
      rw [Function.iterate_succ_apply']
      generalize (dopBody f norm (1 - 0) (-1 / 2) 0)^[k] (dopInit f errOf yo (some (-1 / 2)) 0 1) = s at ih
      obtain ⟨h1, h2⟩ := ih
      have key : ∀ (a : Bool) (s : DopState V), s.tc ≤ 0 → s.dt_one < 0 →
          (dopActual f norm a s).tc ≤ 0 ∧ (dopActual f norm a s).dt_one < 0 := by
        intro a s h1 h2
        simp only [dopActual]
        have hp : ∀ n : ℤ, s.dt_one * 2 ^ n < 0 := fun n => mul_neg_of_neg_of_pos h2 (by positivity)
        split_ifs
        · exact ⟨by simp only; linarith, hp _⟩
        · exact ⟨h1, hp _⟩
      have clip : ∀ s : DopState V, s.tc ≤ 0 → s.dt_one < 0 →
          ¬ ((0 : ℝ) ≤ 1 - 0 ∧ 0 + (1 - 0) - s.tc < s.dt_one) := fun s h1 h2 h => by linarith [h.2]
      have clip' : ∀ x y : ℝ, ¬ ((1 : ℝ) - 0 < 0 ∧ x < y) := fun x y h => by linarith [h.1]
      have body : ∀ (a : Bool) (s₁ : DopState V), s₁.tc ≤ 0 → s₁.dt_one < 0 →
          dopActual f norm a (let s := if (0 : ℝ) ≤ 1 - 0 ∧ 0 + (1 - 0) - s₁.tc < s₁.dt_one then
              { s₁ with dt_one := 0 + (1 - 0) - s₁.tc } else s₁;
            if (1 : ℝ) - 0 < 0 ∧ s.dt_one < 0 + (1 - 0) - s.tc then { s with dt_one := 0 + (1 - 0) - s.tc } else s)
          = dopActual f norm a s₁ := by
        intro a s₁ k1 k2
        rw [if_neg (clip s₁ k1 k2)]
        simp only [if_neg (clip' _ _)]
      by_cases ha : 10000 < (-1 / 2) / s.dt_one
      · have e : dopBody f norm (1 - 0) (-1 / 2) 0 s = dopActual f norm true
            { s with dt_one := -1 / 2 / 10000, err := if s.err % 2 = 0 then s.err + 1 else s.err } := by
          rw [← body true { s with dt_one := -1 / 2 / 10000, err := if s.err % 2 = 0 then s.err + 1 else s.err }
            h1 (by norm_num)]
          simp only [dopBody, ha, decide_true, if_true]
        rw [e]
        exact key _ _ h1 (by norm_num)
      · have e : dopBody f norm (1 - 0) (-1 / 2) 0 s = dopActual f norm false s := by
          rw [← body false _ h1 h2]
          simp only [dopBody, ha, decide_false, Bool.false_eq_true, if_false]
        rw [e]
        exact key _ _ h1 h2
  cases h with
  | interrupted _ _ _ h => cases h
  | step _ _ _ s' rows' e' h g1 g2 =>
    obtain ⟨k, rfl, hk, -⟩ := g1
    have := inv k
    apply hk
    left
    refine ⟨by norm_num, ?_⟩
    have h1 := this.1
    simp only [dopInit, rkStep] at h1 ⊢
    linarith

end

/-! ### Cases -/

/-- A linear equation with a term depending on time, and the oscillator. -/
example : (fun h => rk4Onestep (fun t (y : ℝ) => y + t) 0 h 0 0 - (Real.exp (0 + h) - (0 + h) - 1))
    =O[𝓝 0] fun h : ℝ => h ^ 5 := by
  have h := C24_rk4_order (f := fun t (y : ℝ) => y + t) (t := 0) (y := fun s => Real.exp s - s - 1)
    (analyticAt_snd.add analyticAt_fst) (Eventually.of_forall fun s => by
      have := ((Real.hasDerivAt_exp s).sub (hasDerivAt_id s)).sub_const 1
      refine this.congr_deriv ?_
      ring)
  simpa using h

example : ∃ C, ∀ᶠ h in 𝓝 (0 : ℝ), ∀ junk junk' : ℝ,
    ‖(CMethod.interval (fun (q : ℝ) _ => -q) .symplec6 h 1 ⟨Real.cos 0, -Real.sin 0, junk, junk', 0⟩).qo
      - Real.cos (0 + h)‖ ≤ C * (CMethod.rounding .symplec6 * |h| + |h| ^ 7) := by
  obtain ⟨C, hC⟩ := C24_symplectic_order .symplec6 (F := fun (q : ℝ) _ => -q) (t := 0) (q := Real.cos)
    (p := fun s => -Real.sin s) analyticAt_fst.neg
    (Eventually.of_forall fun s => Real.hasDerivAt_cos s)
    (Eventually.of_forall fun s => (Real.hasDerivAt_sin s).neg)
  exact ⟨C, hC.mono fun h hh junk junk' => (hh junk junk').1⟩

example := C24_dopr54_run (fun _ (y : ℝ) => y) (norm := fun _ e => |e| / 10 ^ 8) (fun _ _ => by positivity)
  (fun _ => 17) 1 10 (by norm_num) 0 (h := -1 / 10) (σ := -1) (Or.inr rfl) (by norm_num) none (by simp)

example := C24_rk_grid .rk6 (fun t (y : ℝ) => y * t) (fun d => d ^ 6 * 10 ^ 20) 1 10 (by norm_num) 0
  (h := -1 / 10) (by norm_num) (fun _ => false) (fun _ _ => rfl)

end Verif
