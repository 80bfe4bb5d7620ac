import Verif.Lemmas.BSeries
import Verif.Lemmas.Splitting
import Mathlib.Analysis.Analytic.Linear
import Mathlib.Analysis.Analytic.Constructions
import Mathlib.Analysis.Calculus.Deriv.Prod

set_option autoImplicit false

/-! # Splitting methods as Runge-Kutta methods, and their local error -/

open Filter Topology Asymptotics

namespace Verif

section algebra
variable {V : Type*} [AddCommGroup V] [Module ℝ V]

/-- Position, momentum and time. -/
def St.triple (s : St V) : V × V × ℝ := (s.q, s.p, s.t)

theorem Op.run_triple (F : V → ℝ → V) (h : ℝ) (o : Op) (s : St V) :
    (o.run F h s).triple = s.triple + h • (o.amount • partField F o.part s.triple) := by
  cases o with
  | drift c =>
    simp only [Op.run, St.triple, Op.amount, Op.part, partField, smul_smul, Prod.smul_mk, Prod.mk_add_mk,
      smul_zero, add_zero, mul_comm c h, smul_eq_mul, mul_one]
  | kick c =>
    simp only [Op.run, St.triple, Op.amount, Op.part, partField, smul_smul, Prod.smul_mk, Prod.mk_add_mk,
      smul_zero, add_zero, mul_comm c h]

theorem split_isStep (F : V → ℝ → V) (h : ℝ) (l : List Op) (s : St V) :
    (splitTableau l).IsStep (partField F) h s.triple (runOps F h l s).triple := by
  have key : ∀ n ≤ l.length, (runOps F h (l.take n) s).triple = s.triple + h • ∑ j : Fin l.length,
      if j.1 < n then (l.get j).amount • partField F (l.get j).part (runOps F h (l.take j.1) s).triple else 0 := by
    intro n
    induction n with
    | zero => intro _; simp [runOps]
    | succ n ih =>
      intro hn
      have hlt : n < l.length := by omega
      rw [List.take_succ_eq_append_getElem hlt, runOps_append]
      change (Op.run F h l[n] (runOps F h (l.take n) s)).triple = _
      rw [Op.run_triple, ih (by omega), add_assoc, ← smul_add]
      congr 2
      have : ∀ j : Fin l.length, (if j.1 < n + 1 then (l.get j).amount • partField F (l.get j).part
          (runOps F h (l.take j.1) s).triple else 0) = (if j.1 < n then (l.get j).amount • partField F (l.get j).part
          (runOps F h (l.take j.1) s).triple else 0) + if j = ⟨n, hlt⟩ then (l.get j).amount • partField F
          (l.get j).part (runOps F h (l.take j.1) s).triple else 0 := by
        intro j
        rcases lt_trichotomy j.1 n with hj | hj | hj
        · rw [if_pos (by omega), if_pos hj, if_neg (fun e => by rw [e] at hj; simp at hj), add_zero]
        · rw [if_pos (by omega), if_neg (by omega), if_pos (Fin.ext hj), zero_add]
        · rw [if_neg (by omega), if_neg (by omega), if_neg (fun e => by rw [e] at hj; simp at hj), add_zero]
      rw [Finset.sum_congr rfl fun j _ => this j, Finset.sum_add_distrib, Finset.sum_ite_eq' Finset.univ]
      rw [if_pos (Finset.mem_univ _)]
      congr 2
      rw [List.get_eq_getElem, ← ih (by omega)]
  have swap : ∀ (P : Fin l.length → Prop) [DecidablePred P] (Y : Fin l.length → V × V × ℝ),
      ∑ c, ∑ j, (if P j ∧ (l.get j).part = c then (l.get j).amount else 0) • partField F c (Y j)
        = ∑ j, if P j then (l.get j).amount • partField F (l.get j).part (Y j) else 0 := by
    intro P _ Y
    rw [Finset.sum_comm]
    refine Finset.sum_congr rfl fun j _ => ?_
    by_cases hP : P j
    · simp only [hP, true_and, if_true, ite_smul, zero_smul]
      rw [Finset.sum_ite_eq]
      simp
    · simp [hP]
  refine ⟨fun i => (runOps F h (l.take i.1) s).triple, fun i => ?_, ?_⟩
  · refine (key i.1 i.2.le).trans ?_
    congr 2
    exact (swap (fun j => j < i) _).symm
  · have := key l.length le_rfl
    rw [List.take_length] at this
    rw [this]
    congr 2
    have e := swap (fun _ => True) fun j => (runOps F h (l.take j.1) s).triple
    simp only [true_and, if_true] at e
    simp only [splitTableau]
    rw [e]
    exact Finset.sum_congr rfl fun j _ => if_pos j.2

end algebra

variable {V : Type*} [NormedAddCommGroup V] [NormedSpace ℝ V]

/-- The linear part of the drift field. -/
noncomputable def driftLin (V : Type*) [NormedAddCommGroup V] [NormedSpace ℝ V] : V × V × ℝ →L[ℝ] V × V × ℝ :=
  (ContinuousLinearMap.inl ℝ V (V × ℝ)).comp
    ((ContinuousLinearMap.fst ℝ V ℝ).comp (ContinuousLinearMap.snd ℝ V (V × ℝ)))

/-- Position and time. -/
noncomputable def posTime (V : Type*) [NormedAddCommGroup V] [NormedSpace ℝ V] : V × V × ℝ →L[ℝ] V × ℝ :=
  (ContinuousLinearMap.fst ℝ V (V × ℝ)).prod
    ((ContinuousLinearMap.snd ℝ V ℝ).comp (ContinuousLinearMap.snd ℝ V (V × ℝ)))

/-- Momentum. -/
noncomputable def momIn (V : Type*) [NormedAddCommGroup V] [NormedSpace ℝ V] : V →L[ℝ] V × V × ℝ :=
  (ContinuousLinearMap.inr ℝ V (V × ℝ)).comp (ContinuousLinearMap.inl ℝ V ℝ)

/-- Expansions of the two fields. -/
noncomputable def partSeries (pF : FormalMultilinearSeries ℝ (V × ℝ) V) (y : V × V × ℝ) :
    Part → FormalMultilinearSeries ℝ (V × V × ℝ) (V × V × ℝ)
  | .drift => (driftLin V).fpowerSeries y + constFormalMultilinearSeries ℝ (V × V × ℝ) ((0, 0, 1) : V × V × ℝ)
  | .kick => (momIn V).compFormalMultilinearSeries (pF.compContinuousLinearMap (posTime V))

theorem partSeries_has {F : V → ℝ → V} {y : V × V × ℝ} {pF : FormalMultilinearSeries ℝ (V × ℝ) V}
    (hF : HasFPowerSeriesAt (fun x : V × ℝ => F x.1 x.2) pF (y.1, y.2.2)) (c : Part) :
    HasFPowerSeriesAt (partField F c) (partSeries pF y c) y := by
  cases c with
  | drift =>
    have := ((driftLin V).hasFPowerSeriesAt y).add (hasFPowerSeriesAt_const (c := ((0, 0, 1) : V × V × ℝ)))
    have e : partField F .drift = ⇑(driftLin V) + fun _ => (0, 0, 1) := by
      funext x
      simp [partField, driftLin]
    rw [e]
    exact this
  | kick =>
    have h1 : HasFPowerSeriesAt (fun x : V × ℝ => F x.1 x.2) pF (posTime V y) := hF
    obtain ⟨r, hr⟩ := h1.compContinuousLinearMap
    have := ((momIn V).comp_hasFPowerSeriesOnBall hr).hasFPowerSeriesAt
    exact this

theorem partSeries_drift_zero (pF : FormalMultilinearSeries ℝ (V × ℝ) V) (y : V × V × ℝ) (n : ℕ) :
    partSeries pF y .drift (n + 2) = 0 := by
  simp [partSeries, ContinuousLinearMap.fpowerSeries]

theorem partSeries_drift_one (pF : FormalMultilinearSeries ℝ (V × ℝ) V) (y : V × V × ℝ)
    (v : Fin 1 → V × V × ℝ) : partSeries pF y .drift 1 v = driftLin V (v 0) := by
  simp [partSeries, ContinuousLinearMap.fpowerSeries]

/-- Directions in which a part does not depend on the state. -/
def Blind : Part → V × V × ℝ → Prop
  | .drift => fun x => driftLin V x = 0
  | .kick => fun x => posTime V x = 0

theorem blind_zero (c : Part) : Blind c (0 : V × V × ℝ) := by cases c <;> simp [Blind]

theorem leaf_blind (pF : FormalMultilinearSeries ℝ (V × ℝ) V) (y : V × V × ℝ) (c : Part)
    (l : List (V × V × ℝ)) {x : V × V × ℝ} (hx : x ∈ l) (hb : Blind c x) :
    elemDiff (partSeries pF y) (.leaf c) l = 0 := by
  obtain ⟨i, hi⟩ := List.get_of_mem hx
  cases c with
  | drift =>
    match l, i, hi with
    | [a], i, hi =>
      have : a = x := by simpa using hi
      subst this
      change partSeries pF y .drift 1 _ = 0
      rw [partSeries_drift_one]
      exact hb
    | a :: b :: l, i, hi =>
      change partSeries pF y .drift (l.length + 2) _ = 0
      rw [partSeries_drift_zero]
      rfl
  | kick =>
    change momIn V (pF l.length fun j => posTime V (l.get j)) = 0
    have hb' : posTime V (l.get i) = 0 := by rw [hi]; exact hb
    rw [ContinuousMultilinearMap.map_coord_zero _ i hb', map_zero]

/-- A part is blind to its own direction. -/
theorem elemDiff_blind (pF : FormalMultilinearSeries ℝ (V × ℝ) V) (y : V × V × ℝ) (t : Tree Part)
    (l : List (V × V × ℝ)) : Blind t.color (elemDiff (partSeries pF y) t l) := by
  rw [elemDiff_eq]
  generalize t.children.map (fun s => elemDiff (partSeries pF y) s []) ++ l = m
  match t.color, m with
  | .kick, m =>
    change posTime V (momIn V _) = 0
    simp [posTime, momIn]
  | .drift, [] =>
    change driftLin V (partSeries pF y .drift 0 _) = 0
    simp [partSeries, ContinuousLinearMap.fpowerSeries, driftLin]
  | .drift, [a] =>
    change driftLin V (partSeries pF y .drift 1 _) = 0
    rw [partSeries_drift_one]
    simp [driftLin]
  | .drift, a :: b :: m =>
    change driftLin V (partSeries pF y .drift (m.length + 2) _) = 0
    rw [partSeries_drift_zero]
    simp

theorem elemDiff_of_blind (pF : FormalMultilinearSeries ℝ (V × ℝ) V) (y : V × V × ℝ) (t : Tree Part)
    (l : List (V × V × ℝ)) {x : V × V × ℝ} (hx : x ∈ l) (hb : Blind t.color x) :
    elemDiff (partSeries pF y) t l = 0 := by
  rw [elemDiff_eq]
  exact leaf_blind pF y t.color _ (List.mem_append_right _ hx) hb

theorem elemDiff_not_contributes (pF : FormalMultilinearSeries ℝ (V × ℝ) V) (y : V × V × ℝ) (t : Tree Part)
    (l : List (V × V × ℝ)) (h : ¬ t.Contributes l.length) : elemDiff (partSeries pF y) t l = 0 := by
  induction t generalizing l with
  | leaf c =>
    cases c with
    | drift =>
      match l with
      | [] => exact absurd (Nat.zero_le 1) h
      | [_] => exact absurd (le_refl 1) h
      | a :: b :: m =>
        change partSeries pF y .drift (m.length + 2) _ = 0
        rw [partSeries_drift_zero]
        rfl
    | kick => exact absurd trivial h
  | graft t s h1 h2 =>
    change elemDiff (partSeries pF y) t (elemDiff (partSeries pF y) s [] :: l) = 0
    by_cases ha : s.color = t.color
    · exact elemDiff_of_blind pF y t _ List.mem_cons_self (ha ▸ elemDiff_blind pF y s [])
    by_cases hb : s.Contributes 0
    · refine h1 _ fun hc => h ⟨ha, hb, ?_⟩
      simpa using hc
    · rw [h2 [] hb]
      exact elemDiff_of_blind pF y t _ List.mem_cons_self (blind_zero _)

/-- Local error of a splitting method whose order conditions hold up to `ε`. -/
theorem split_local_error {F : V → ℝ → V} {s : St V} (hF : AnalyticAt ℝ (fun x : V × ℝ => F x.1 x.2) (s.q, s.t))
    {l : List Op} {n : ℕ} {ε : ℝ} (hε : 0 ≤ ε)
    (hl : ∀ t : Tree Part, t.Contributes 0 → t.size ≤ n → |(splitTableau l).defect t| ≤ ε)
    {q p : ℝ → V} (hq0 : q 0 = s.q) (hp0 : p 0 = s.p)
    (hq : ∀ᶠ h in 𝓝 (0 : ℝ), HasDerivAt q (p h) h)
    (hp : ∀ᶠ h in 𝓝 (0 : ℝ), HasDerivAt p (F (q h) (s.t + h)) h) :
    ∃ C, ∀ᶠ h in 𝓝 (0 : ℝ),
      ‖(runOps F h l s).q - q h‖ ≤ C * (ε * |h| + |h| ^ (n + 1)) ∧
      ‖(runOps F h l s).p - p h‖ ≤ C * (ε * |h| + |h| ^ (n + 1)) ∧
      |(runOps F h l s).t - (s.t + h)| ≤ C * (ε * |h| + |h| ^ (n + 1)) := by
  obtain ⟨pF, hpF⟩ := hF
  have hu : ∀ᶠ h in 𝓝 (0 : ℝ), HasDerivAt (fun h => ((q h, p h, s.t + h) : V × V × ℝ))
      (∑ c, partField F c (q h, p h, s.t + h)) h := by
    filter_upwards [hq, hp] with h h1 h2
    have h3 : HasDerivAt (fun h => s.t + h) 1 h := (hasDerivAt_id h).const_add s.t
    have : HasDerivAt (fun h => ((q h, p h, s.t + h) : V × V × ℝ)) (p h, F (q h) (s.t + h), 1) h :=
      HasDerivAt.prodMk h1 (HasDerivAt.prodMk h2 h3)
    refine this.congr_deriv ?_
    have e : (Finset.univ : Finset Part) = {.drift, .kick} := rfl
    rw [e, Finset.sum_pair (by decide)]
    simp [partField]
  have key := local_error (f := partField F) (p := partSeries pF s.triple) (y := s.triple) (T := splitTableau l)
    (fun c => partSeries_has hpF c) (fun c i j hij => if_neg fun h => absurd h.1 (not_lt.2 hij))
    (y' := fun h => (runOps F h l s).triple) (fun h => split_isStep F h l s)
    (u := fun h => (q h, p h, s.t + h)) (by simp [hq0, hp0, St.triple]) hu n
  obtain ⟨C, hC⟩ := key.bound
  set M := ∑ t ∈ treesLE Part n, ‖elemDiff (partSeries pF s.triple) t []‖ with hM
  have hM0 : 0 ≤ M := Finset.sum_nonneg fun _ _ => norm_nonneg _
  refine ⟨max C M, ?_⟩
  filter_upwards [hC, Metric.ball_mem_nhds (0 : ℝ) one_pos] with h hC hh
  rw [Metric.mem_ball, dist_zero_right, Real.norm_eq_abs] at hh
  have hsum : ‖∑ t ∈ treesLE Part n, (h ^ t.size * (splitTableau l).defect t) • elemDiff (partSeries pF s.triple) t []‖
      ≤ ε * |h| * M := by
    rw [hM, Finset.mul_sum]
    refine (norm_sum_le _ _).trans (Finset.sum_le_sum fun t ht => ?_)
    rw [norm_smul, norm_mul, norm_pow, Real.norm_eq_abs, Real.norm_eq_abs]
    by_cases hc : t.Contributes 0
    · have h1 := hl t hc (mem_treesLE.1 ht)
      have h2 : |h| ^ t.size ≤ |h| := by
        have := pow_le_pow_of_le_one (abs_nonneg h) hh.le t.size_pos
        simpa using this
      calc |h| ^ t.size * |(splitTableau l).defect t| * ‖elemDiff (partSeries pF s.triple) t []‖
          ≤ |h| * ε * ‖elemDiff (partSeries pF s.triple) t []‖ := by gcongr
        _ = _ := by ring
    · rw [elemDiff_not_contributes pF s.triple t [] hc, norm_zero, mul_zero, mul_zero]
  have htot : ‖(runOps F h l s).triple - (q h, p h, s.t + h)‖ ≤ max C M * (ε * |h| + |h| ^ (n + 1)) := by
    have h1 := norm_le_norm_add_norm_sub' ((runOps F h l s).triple - (q h, p h, s.t + h))
      (∑ t ∈ treesLE Part n, (h ^ t.size * (splitTableau l).defect t) • elemDiff (partSeries pF s.triple) t [])
    refine h1.trans ((add_le_add hsum hC).trans ?_)
    rw [norm_pow, Real.norm_eq_abs, mul_add]
    have : 0 ≤ ε * |h| := mul_nonneg hε (abs_nonneg h)
    have h4 : 0 ≤ |h| ^ (n + 1) := by positivity
    have := mul_le_mul_of_nonneg_left (le_max_right C M) this
    have := mul_le_mul_of_nonneg_right (le_max_left C M) h4
    linarith
  rw [Prod.norm_def, Prod.norm_def] at htot
  have a1 := (le_max_left _ _).trans htot
  have a2 := ((le_max_left _ _).trans (le_max_right _ _)).trans htot
  have a3 := ((le_max_right _ _).trans (le_max_right _ _)).trans htot
  exact ⟨a1, a2, a3⟩

end Verif
