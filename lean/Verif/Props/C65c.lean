import Verif.Props.C65b

set_option autoImplicit false

/-!
# C65: where `SOS` and `bruteSOS` disagree with the property, and the brute-force crossings
-/

open Set Filter Topology Real

namespace Verif
open SOS Coords

/-- The orbits of the force `(t, 0, -z)`, for rows `(x, vx, z, vz)` with `y = 0`: after the time `d` from
the time `t`. The angle of `(z, vz)` advances like time. -/
noncomputable def C65aux.flow (t d : ℝ) (s : Fin 4 → ℝ) : Fin 4 → ℝ :=
  ![s 0 + s 1 * d + t * d ^ 2 / 2 + d ^ 3 / 6, s 1 + t * d + d ^ 2 / 2, s 2 * cos d + s 3 * sin d,
    s 3 * cos d - s 2 * sin d]

theorem C65aux.flow_zero (t : ℝ) (s : Fin 4 → ℝ) : C65aux.flow t 0 s = s := by
  funext i
  fin_cases i <;> simp [C65aux.flow]

theorem C65aux.flow_deriv (t d : ℝ) (s : Fin 4 → ℝ) :
    HasDerivAt (fun d => C65aux.flow t d s) ![C65aux.flow t d s 1, t + d, C65aux.flow t d s 3, -C65aux.flow t d s 2] d := by
  rw [hasDerivAt_pi]
  have h := hasDerivAt_id d
  intro i
  fin_cases i
  · refine (((((h.const_mul (s 1)).const_add (s 0)).add (((h.pow 2).const_mul t).div_const 2)).add
      ((h.pow 3).div_const 6))).congr_deriv ?_
    simp [C65aux.flow]
    ring
  · refine (((h.const_mul t).const_add (s 1)).add ((h.pow 2).div_const 2)).congr_deriv ?_
    simp
  · refine (((hasDerivAt_cos d).const_mul (s 2)).add ((hasDerivAt_sin d).const_mul (s 3))).congr_deriv ?_
    simp [C65aux.flow]
    ring
  · refine (((hasDerivAt_cos d).const_mul (s 3)).sub ((hasDerivAt_sin d).const_mul (s 2))).congr_deriv ?_
    simp [C65aux.flow]
    ring

/-- The exact integrator of these orbits. -/
noncomputable def C65aux.exactI (psis : List ℝ) (s : Fin 4 → ℝ) (t : ℝ) : List ((Fin 4 → ℝ) × ℝ) :=
  psis.map fun d => (C65aux.flow t d s, t + d)

/-- A force that depends on time: the second crossing is not a point of the orbit, since the integration
after the first crossing starts again from the original time. -/
theorem C65_time_fails : ∃ (Φ : ℝ → ℝ → (Fin 4 → ℝ) → (Fin 4 → ℝ))
    (I : List ℝ → (Fin 4 → ℝ) → ℝ → List ((Fin 4 → ℝ) × ℝ)) (s : Fin 4 → ℝ) (o' : Obj (Fin 4 → ℝ)) (q r : Fin 4 → ℝ),
    (∀ t s, Φ t 0 s = s) ∧
    (∀ t d s, HasDerivAt (fun d => Φ t d s) ![Φ t d s 1, t + d, Φ t d s 3, -Φ t d s 2] d) ∧
    (∀ psis s t, I psis s t = psis.map fun d => (Φ t d s, t + d)) ∧
    run I (fun w => w 2) (fun w => w 3) true false 2 1 (.scalar 0) ⟨[s], [], []⟩ = (.ok [[q, r]], o') ∧
    ∀ d, r ≠ Φ 0 d s := by
  have hp := Real.pi_pos
  obtain ⟨o', -, h1, h2, -⟩ := C65aux.run_off (I := C65aux.exactI) (pos := fun w => w 2) (vel := fun w => w 3)
    (python := true) (fixed := false) (ncross := 2) (skip := 1) (n := 1) (t0 := .scalar 0)
    (o := ⟨[![0, 0, 1, 0]], [], []⟩) (ts := fun _ => 0) (psi := fun _ => π / 2) (s := fun _ => ![0, 0, 1, 0])
    (f := fun _ d => (C65aux.flow 0 d ![0, 0, 1, 0], 0 + d))
    (g := fun _ d => (C65aux.flow 0 d (C65aux.flow 0 (2 * π - π / 2) ![0, 0, 1, 0]), 0 + d))
    (m := fun _ => 1) rfl one_pos rfl (fun _ _ => ⟨by linarith, by linarith⟩)
    (fun _ _ => ⟨1, one_pos, by simp, by simp⟩)
    ⟨0, one_pos, by rw [abs_of_pos (by positivity)]; have := Real.two_le_pi; norm_num; linarith⟩
    (by funext j; rw [if_neg]; have := hp.le; simp only [not_lt]; positivity) (fun _ _ P => rfl) (fun _ _ x y h => by simpa using h)
    (fun _ _ P => by simp [C65aux.exactI]) (fun _ _ x y h => by simpa using h)
  rw [h2] at h1
  refine ⟨C65aux.flow, C65aux.exactI, ![0, 0, 1, 0], o', _, _, C65aux.flow_zero, C65aux.flow_deriv, fun _ _ _ => rfl, h1, ?_⟩
  intro d h
  have e0 := congrFun h 0
  have e1 := congrFun h 1
  simp [C65aux.flow] at e0 e1
  have hd : d ^ 2 = (5 * π / 2) ^ 2 := by nlinarith
  rcases sq_eq_sq_iff_eq_or_eq_neg.1 hd with h | h
  · rw [h] at e0
    have : π ^ 3 = 0 := by nlinarith
    exact hp.ne' (pow_eq_zero_iff (by norm_num) |>.1 this)
  · rw [h] at e0
    have : π ^ 3 = 0 := by nlinarith
    exact hp.ne' (pow_eq_zero_iff (by norm_num) |>.1 this)

/-- The stored times are not the times of the crossings: they start from the first crossing. -/
theorem C65_times_fails : ∃ (Φ : ℝ → ℝ → (Fin 4 → ℝ) → (Fin 4 → ℝ))
    (I : List ℝ → (Fin 4 → ℝ) → ℝ → List ((Fin 4 → ℝ) × ℝ)) (s : Fin 4 → ℝ) (o' : Obj (Fin 4 → ℝ)) (q : Fin 4 → ℝ)
    (t : ℝ),
    (∀ t s, Φ t 0 s = s) ∧
    (∀ t d s, HasDerivAt (fun d => Φ t d s) ![Φ t d s 1, t + d, Φ t d s 3, -Φ t d s 2] d) ∧
    (∀ psis s t, I psis s t = psis.map fun d => (Φ t d s, t + d)) ∧
    run I (fun w => w 2) (fun w => w 3) true false 1 1 (.scalar 0) ⟨[s], [], []⟩ = (.ok [[q]], o') ∧
    o'.t = [[t]] ∧ q ≠ Φ 0 t s := by
  have hp := Real.pi_pos
  obtain ⟨o', -, h1, h2, h3, -⟩ := C65aux.run_off (I := C65aux.exactI) (pos := fun w => w 2) (vel := fun w => w 3)
    (python := true) (fixed := false) (ncross := 1) (skip := 1) (n := 1) (t0 := .scalar 0)
    (o := ⟨[![0, 0, 1, 0]], [], []⟩) (ts := fun _ => 0) (psi := fun _ => π / 2) (s := fun _ => ![0, 0, 1, 0])
    (f := fun _ d => (C65aux.flow 0 d ![0, 0, 1, 0], 0 + d))
    (g := fun _ d => (C65aux.flow 0 d (C65aux.flow 0 (2 * π - π / 2) ![0, 0, 1, 0]), 0 + d))
    (m := fun _ => 1) rfl one_pos rfl (fun _ _ => ⟨by linarith, by linarith⟩)
    (fun _ _ => ⟨1, one_pos, by simp, by simp⟩)
    ⟨0, one_pos, by rw [abs_of_pos (by positivity)]; have := Real.two_le_pi; norm_num; linarith⟩
    (by funext j; rw [if_neg]; have := hp.le; simp only [not_lt]; positivity) (fun _ _ P => rfl) (fun _ _ x y h => by simpa using h)
    (fun _ _ P => by simp [C65aux.exactI]) (fun _ _ x y h => by simpa using h)
  rw [h2] at h1
  refine ⟨C65aux.flow, C65aux.exactI, ![0, 0, 1, 0], o', _, _, C65aux.flow_zero, C65aux.flow_deriv, fun _ _ _ => rfl, h1,
    h3, ?_⟩
  intro h
  have e1 := congrFun h 1
  simp [C65aux.flow] at e1
  have := hp
  nlinarith [sq_nonneg π, pow_pos hp 2]

/-- The initial condition of an orbit that starts close above the surface (angle `5e-8`) is lost: the
object keeps the first crossing as its initial condition. -/
theorem C65_initial_fails : ∃ (Φ : ℝ → ℝ → (Fin 4 → ℝ) → (Fin 4 → ℝ))
    (I : List ℝ → (Fin 4 → ℝ) → ℝ → List ((Fin 4 → ℝ) × ℝ)) (s : Fin 4 → ℝ) (o' : Obj (Fin 4 → ℝ)),
    (∀ t s, Φ t 0 s = s) ∧
    (∀ t d s, HasDerivAt (fun d => Φ t d s) ![Φ t d s 1, t + d, Φ t d s 3, -Φ t d s 2] d) ∧
    (∀ psis s t, I psis s t = psis.map fun d => (Φ t d s, t + d)) ∧
    run I (fun w => w 2) (fun w => w 3) true false 1 1 (.scalar 0) ⟨[s], [], []⟩ = (.ok o'.orbit, o') ∧
    o'.vxvv ≠ [s] := by
  have hp := Real.pi_pos
  have h2 := Real.two_le_pi
  obtain ⟨o', -, h1, -, -, -, h3⟩ := C65aux.run_off (I := C65aux.exactI) (pos := fun w => w 2) (vel := fun w => w 3)
    (python := true) (fixed := false) (ncross := 1) (skip := 1) (n := 1) (t0 := .scalar 0)
    (o := ⟨[![0, 0, sin 5e-8, cos 5e-8]], [], []⟩) (ts := fun _ => 0) (psi := fun _ => 5e-8)
    (s := fun _ => ![0, 0, sin 5e-8, cos 5e-8])
    (f := fun _ d => (C65aux.flow 0 d ![0, 0, sin 5e-8, cos 5e-8], 0 + d))
    (g := fun _ d => (C65aux.flow 0 d (C65aux.flow 0 (2 * π - 5e-8) ![0, 0, sin 5e-8, cos 5e-8]), 0 + d))
    (m := fun _ => 1) rfl one_pos rfl (fun _ _ => ⟨by norm_num; linarith, by norm_num; linarith⟩)
    (fun _ _ => ⟨1, one_pos, by simp, by simp⟩)
    ⟨0, one_pos, by norm_num⟩
    (by funext j; rw [if_neg]; norm_num) (fun _ _ P => rfl) (fun _ _ x y h => by simpa using h)
    (fun _ _ P => by simp [C65aux.exactI]) (fun _ _ x y h => by simpa using h)
  refine ⟨C65aux.flow, C65aux.exactI, ![0, 0, sin 5e-8, cos 5e-8], o', C65aux.flow_zero, C65aux.flow_deriv, fun _ _ _ => rfl, h1, ?_⟩
  rw [h3 fun _ _ => by norm_num]
  intro h
  have h := (List.cons.inj h).1
  have e1 := congrFun h 1
  simp [C65aux.flow] at e1
  norm_num at e1
  nlinarith

/-- The first point of an orbit that starts on the surface depends on the other orbits of the object: alone
it is the start, with an orbit off the surface it is the next crossing. -/
theorem C65_company_fails : ∃ (Φ : ℝ → ℝ → (Fin 4 → ℝ) → (Fin 4 → ℝ))
    (I : List ℝ → (Fin 4 → ℝ) → ℝ → List ((Fin 4 → ℝ) × ℝ)) (s s' : Fin 4 → ℝ) (o₁ o₂ : Obj (Fin 4 → ℝ))
    (q r r' : Fin 4 → ℝ),
    (∀ t s, Φ t 0 s = s) ∧
    (∀ t d s, HasDerivAt (fun d => Φ t d s) ![Φ t d s 1, t + d, Φ t d s 3, -Φ t d s 2] d) ∧
    (∀ psis s t, I psis s t = psis.map fun d => (Φ t d s, t + d)) ∧
    run I (fun w => w 2) (fun w => w 3) false false 1 1 (.scalar 0) ⟨[s], [], []⟩ = (.ok [[q]], o₁) ∧
    run I (fun w => w 2) (fun w => w 3) false false 1 1 (.scalar 0) ⟨[s, s'], [], []⟩ = (.ok [[r], [r']], o₂) ∧
    q = s ∧ r = Φ 0 (2 * π) s ∧ q ≠ r := by
  have hp := Real.pi_pos
  obtain ⟨o₁, h1, h2, -⟩ := C65aux.run_on (I := C65aux.exactI) (pos := fun w => w 2) (vel := fun w => w 3)
    (python := false) (fixed := false) (ncross := 1) (skip := 1) (n := 1) (t0 := .scalar 0)
    (o := ⟨[![0, 0, 0, 1]], [], []⟩) (ts := fun _ => 0) (s := fun _ => ![0, 0, 0, 1])
    (g := fun _ d => (C65aux.flow 0 d ![0, 0, 0, 1], 0 + d)) rfl one_pos rfl
    (fun _ _ => ⟨1, one_pos, by simp, by simp⟩) (fun _ _ P => rfl) (fun _ _ x y h => by simpa using h)
  obtain ⟨o₂, -, h3, h4, -⟩ := C65aux.run_off (I := C65aux.exactI) (pos := fun w => w 2) (vel := fun w => w 3)
    (python := false) (fixed := false) (ncross := 1) (skip := 1) (n := 2) (t0 := .scalar 0)
    (o := ⟨[![0, 0, 0, 1], ![0, 0, 1, 0]], [], []⟩) (ts := fun _ => 0) (psi := fun j => if j = 0 then 0 else π / 2)
    (s := fun j => if j = 0 then ![0, 0, 0, 1] else ![0, 0, 1, 0])
    (f := fun j d => (C65aux.flow 0 d (if j = 0 then ![0, 0, 0, 1] else ![0, 0, 1, 0]), 0 + d))
    (g := fun j d => (C65aux.flow 0 d (C65aux.flow 0 (2 * π - (if j = 0 then 0 else π / 2))
      (if j = 0 then ![0, 0, 0, 1] else ![0, 0, 1, 0])), 0 + d))
    (m := fun _ => 1) rfl one_pos rfl
    (fun j _ => by split_ifs; exacts [⟨by linarith, hp.le⟩, ⟨by linarith, by linarith⟩])
    (fun j _ => ⟨1, one_pos, by split_ifs <;> simp, by split_ifs <;> simp⟩)
    ⟨1, one_lt_two, by rw [if_neg one_ne_zero, abs_of_pos (by positivity)]; have := Real.two_le_pi; norm_num; linarith⟩
    (by funext j; rw [if_neg]; split_ifs; exacts [lt_irrefl _, not_lt.2 (by positivity)]) (fun _ _ P => rfl) (fun _ _ x y h => by simpa using h)
    (fun _ _ P => by simp [C65aux.exactI]) (fun _ _ x y h => by simpa using h)
  rw [h2] at h1
  rw [h4] at h3
  refine ⟨C65aux.flow, C65aux.exactI, ![0, 0, 0, 1], ![0, 0, 1, 0], o₁, o₂, _, _, _, C65aux.flow_zero, C65aux.flow_deriv,
    fun _ _ _ => rfl, h1, h3, ?_, ?_, ?_⟩
  · simp [C65aux.flow_zero]
  · simp [C65aux.flow_zero]
  · intro h
    have e1 := congrFun h 1
    simp [C65aux.flow] at e1
    nlinarith

/-- Several orbits, a Python integrator and a scalar `t0`, as documented: an error, whatever the orbits. -/
theorem C65_scalar_t0_fails {S : Type} (I : List ℝ → S → ℝ → List (S × ℝ)) (pos vel : S → ℝ) (fixed : Bool)
    (ncross skip : ℕ) (t : ℝ) (o : Obj S) (hn : o.vxvv.length ≠ 1)
    (hin : ∀ s ∈ o.vxvv, vel s ≠ 0) :
    (run I pos vel true fixed ncross skip (.scalar t) o).1 = .error .typeError := by
  have h : ∀ psis : List (List ℝ), integrateSOS I true psis (.scalar t) o = (.error .typeError, o) := by
    intro psis
    simp [integrateSOS, startTimes, hn]
  unfold run
  rw [if_neg (by rintro ⟨s, hs, h0, -⟩; exact hin s hs h0)]
  by_cases hc : ∃ p ∈ o.vxvv.map fun s => atan2 (pos s) (vel s), |p| > 1e-10
  · simp only [hc, decide_true, if_true, h]
  · simp only [hc, decide_false, Bool.false_eq_true, if_false, h]

/-! ## The brute-force section -/

/-- Between the two times kept for a crossing the coordinate vanishes, and it is positive from there on. -/
theorem C65_brute_sound {z : ℝ → ℝ} {t : List ℝ} (ht : t.Pairwise (· < ·)) (hz : Continuous z) {i : ℕ}
    (hi : i ∈ crossings (t.map z)) :
    ∃ a b, t[i]? = some a ∧ t[i + 1]? = some b ∧ a < b ∧ z a < 0 ∧ 0 < z b ∧ ∃ c ∈ Ioo a b, z c = 0 ∧
      ∀ x ∈ Ioc c b, 0 < z x := by
  unfold crossings at hi
  simp only [List.mem_filter, decide_eq_true_eq] at hi
  obtain ⟨-, za, zb, ha, hb, h1, h2⟩ := hi
  rw [List.getElem?_map, Option.map_eq_some_iff] at ha hb
  obtain ⟨a, ha, rfl⟩ := ha
  obtain ⟨b, hb, rfl⟩ := hb
  have hab : a < b := by
    obtain ⟨ia, ea⟩ := List.getElem?_eq_some_iff.1 ha
    obtain ⟨ib, eb⟩ := List.getElem?_eq_some_iff.1 hb
    rw [← ea, ← eb]
    exact List.pairwise_iff_getElem.1 ht _ _ ia ib (Nat.lt_succ_self i)
  refine ⟨a, b, ha, hb, hab, h1, h2, ?_⟩
  have hcl : IsCompact {x ∈ Icc a b | z x ≤ 0} :=
    isCompact_Icc.inter_right (isClosed_le hz continuous_const)
  have hne : {x ∈ Icc a b | z x ≤ 0}.Nonempty := ⟨a, ⟨le_rfl, hab.le⟩, h1.le⟩
  obtain ⟨c, ⟨hc, hzc⟩, hmax⟩ := hcl.exists_isGreatest hne
  have hpos : ∀ x ∈ Ioc c b, 0 < z x := by
    intro x hx
    by_contra hn
    have := hmax ⟨⟨hc.1.trans hx.1.le, hx.2⟩, not_lt.1 hn⟩
    exact absurd hx.1 (not_lt.2 this)
  have h0 : z c = 0 := by
    obtain ⟨x, hx, hx0⟩ := intermediate_value_Icc hc.2 hz.continuousOn ⟨hzc, h2.le⟩
    rcases eq_or_lt_of_le hx.1 with h | h
    · rw [h]; exact hx0
    · exact absurd hx0 (hpos x ⟨h, hx.2⟩).ne'
  refine ⟨c, ⟨lt_of_le_of_ne hc.1 ?_, lt_of_le_of_ne hc.2 ?_⟩, h0, hpos⟩
  · rintro rfl
    exact h1.ne h0
  · rintro rfl
    exact h2.ne' h0

/-- Every passage from below the surface at one time to above it at a later one contains a column that is
kept, as long as no column in between is exactly on the surface. Missing: columns on the surface, for which
it is false (`C65_brute_fails`). -/
theorem C65_brute_complete_partial {cross : List ℝ} {i : ℕ} : ∀ {j : ℕ}, i < j → ∀ {a b : ℝ}, cross[i]? = some a →
    cross[j]? = some b → a < 0 → 0 < b → (∀ k, i < k → k < j → cross[k]? ≠ some 0) →
    ∃ k ∈ crossings cross, i ≤ k ∧ k < j
  | 0, h, _, _, _, _, _, _, _ => absurd h (Nat.not_lt_zero _)
  | j + 1, h, a, b, ha, hb, h1, h2, h0 => by
    obtain ⟨hjl, -⟩ := List.getElem?_eq_some_iff.1 hb
    obtain ⟨c, hc⟩ : ∃ c, cross[j]? = some c := ⟨cross[j], List.getElem?_eq_getElem (by omega)⟩
    have found : c < 0 → ∃ k ∈ crossings cross, i ≤ k ∧ k < j + 1 := fun hc0 => by
      refine ⟨j, ?_, by omega, by omega⟩
      unfold crossings
      simp only [List.mem_filter, decide_eq_true_eq]
      exact ⟨List.mem_range.2 (by omega), c, b, hc, hb, hc0, h2⟩
    rcases Nat.lt_succ_iff_lt_or_eq.1 h with hij | rfl
    · rcases lt_trichotomy c 0 with hc0 | rfl | hc0
      · exact found hc0
      · exact absurd hc (h0 j hij (Nat.lt_succ_self j))
      · obtain ⟨k, hk, k1, k2⟩ := C65_brute_complete_partial hij ha hc h1 hc0 fun k a1 a2 => h0 k a1 (by omega)
        exact ⟨k, hk, k1, by omega⟩
    · rw [ha] at hc
      obtain rfl := Option.some.inj hc
      exact found h1

/-- A column exactly on the surface hides the crossing. -/
theorem C65_brute_fails : ∃ (z : ℝ → ℝ) (t : List ℝ), t.Pairwise (· < ·) ∧ (∀ x, HasDerivAt z 1 x) ∧
    (∃ c ∈ t, z c = 0) ∧ (∃ a ∈ t, z a < 0) ∧ (∃ b ∈ t, 0 < z b) ∧ crossings (t.map z) = [] := by
  have h : List.range 2 = [0, 1] := rfl
  refine ⟨fun x => x, [-1, 0, 1], by norm_num, fun x => hasDerivAt_id x, ⟨0, by simp⟩, ⟨-1, by simp⟩, ⟨1, by simp⟩, ?_⟩
  simp [crossings, h]

end Verif
