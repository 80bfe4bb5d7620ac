import Verif.Lemmas.Evolved
import Verif.Model.NonInertial

set_option autoImplicit false

/-!
# C83 Evolved disk distribution functions

The density returned by an `evolveddiskdf` at time `t` is the initial density carried along the orbits
(the collisionless Boltzmann equation), for one time and for a list of times.
-/

noncomputable section
namespace Verif
open Evolved C83Spec Real

namespace C83aux

theorem sortDesc_perm (l : List ℝ) : (sortDesc l).Perm l := List.perm_insertionSort _ l

theorem sortDesc_pairwise (l : List ℝ) : (sortDesc l).Pairwise (· ≥ ·) := List.pairwise_insertionSort _ l

theorem sortDesc_eq {l : List ℝ} (h : l.Pairwise (· ≥ ·)) : sortDesc l = l := List.Pairwise.insertionSort_eq h

theorem sortDesc_reverse {l : List ℝ} (h : l.Pairwise (· ≤ ·)) : sortDesc l = l.reverse :=
  List.Perm.eq_of_pairwise' (r := (· ≥ ·)) (sortDesc_pairwise l) (List.pairwise_reverse.2 h)
    ((sortDesc_perm l).trans l.reverse_perm.symm)

theorem head_sortDesc {l : List ℝ} {a : ℝ} (ha : a ∈ l) (h : ∀ b ∈ l, b ≤ a) : (sortDesc l).headD 0 = a := by
  have hp := sortDesc_pairwise l
  have hm : ∀ b, b ∈ sortDesc l ↔ b ∈ l := fun b => (sortDesc_perm l).mem_iff
  cases hs : sortDesc l with
  | nil => rw [hs] at hm; exact absurd ((hm a).2 ha) (by simp)
  | cons x r =>
    rw [hs] at hm hp
    have h1 : x ≤ a := h x ((hm x).1 (by simp))
    have h2 : a ≤ x := by
      rcases List.mem_cons.1 ((hm a).2 ha) with e | e
      · exact e.le
      · exact (List.pairwise_cons.1 hp).1 a e
    simpa using le_antisymm h1 h2

theorem amax_eq {t0 : ℝ} {l : List ℝ} (h : (t0 :: l).Pairwise (· ≥ ·)) : amax t0 l = t0 := by
  have h1 := (List.pairwise_cons.1 h).1
  unfold amax
  clear h
  induction l with
  | nil => rfl
  | cons a l ih =>
    simp only [List.foldl_cons]
    rw [max_eq_left (h1 a (by simp))]
    exact ih fun b hb => h1 b (by simp [hb])

theorem mem_linspace_le {a b : ℝ} (h : b ≤ a) {n : ℕ} (hn : 2 ≤ n) : ∀ x ∈ linspace a b n, x ≤ a := by
  intro x hx
  simp only [linspace, List.mem_map, List.mem_range] at hx
  obtain ⟨i, hi, rfl⟩ := hx
  have h1 : (0:ℝ) < (n:ℝ) - 1 := by
    have : (2:ℝ) ≤ n := by exact_mod_cast hn
    linarith
  have : (b - a) * i / ((n:ℝ) - 1) ≤ 0 :=
    div_nonpos_of_nonpos_of_nonneg (mul_nonpos_of_nonpos_of_nonneg (by linarith) (by positivity)) h1.le
  linarith

theorem left_mem_linspace {a b : ℝ} {n : ℕ} (hn : 2 ≤ n) : a ∈ linspace a b n := by
  simp only [linspace, List.mem_map, List.mem_range]
  exact ⟨0, by omega, by simp⟩

/-- In a force independent of time, only the elapsed time matters. -/
theorem back {F : Force} (hF : LocLip F) (hA : Autonomous F) {I : Set ℝ} (hI : IsOpen I) (hc : IsPreconnected I)
    (h0 : (0:ℝ) ∈ I) {integ : Phase → ℝ → ℝ → Phase} {w : Phase}
    (hex : ∀ s, Exact F integ {t | t - s ∈ I} w s) {d : ℝ} (hd : d ∈ I) (s s' : ℝ) :
    integ w s (d + s) = integ w s' (d + s') := by
  have key : ∀ s, IsOrbitOn F I (fun t => integ w s (t + s)) := by
    intro s
    have := shift hA (hex s).2 s
    simpa using this
  refine unique hF hI hc (key s) (key s') h0 ?_ d hd
  simp only [zero_add]
  rw [(hex s).1, (hex s').1]

theorem callOne_eq {F : Force} (hF : LocLip F) (hA : Autonomous F) {I : Set ℝ} (hI : IsOpen I)
    (hc : IsPreconnected I) (h0 : (0:ℝ) ∈ I) {S : Setup} {w : Phase}
    (hex : ∀ s, Exact F S.integ {t | t - s ∈ I} w s) {t : ℝ} (ht : S.tInit - t ∈ I) (s : ℝ) :
    S.init (S.integ w s (S.tInit + s - t)) = callOne S w t := by
  have e := back hF hA hI hc h0 hex ht s t
  have e1 : S.tInit - t + s = S.tInit + s - t := by ring
  rw [e1, sub_add_cancel] at e
  rw [e]
  unfold callOne
  by_cases h : S.tInit = t
  · rw [if_pos h, h, (hex t).1]
  · rw [if_neg h]
    have : 0 < S.integ w t S.tInit 0 := ((hex t).2 S.tInit ht).1
    simp only [if_neg (not_le.2 this)]

end C83aux
open C83aux

/-- The density at a single time is carried along the orbits: for every force whose equations of motion
are locally Lipschitz away from the centre, every orbit `y` and every time `t` of an interval, the
density at `y t` at time `t` is the initial density at the place where the orbit was at the initial
time. In particular it is the same all along the orbit. -/
theorem C83_single {F : Force} (hF : LocLip F) {I : Set ℝ} (hI : IsOpen I) (hc : IsPreconnected I) {S : Setup}
    (hto : S.tInit ∈ I) {y : ℝ → Phase} (hy : IsOrbitOn F I y) (hex : ∀ t ∈ I, Exact F S.integ I (y t) t) :
    ∀ t ∈ I, callOne S (y t) t = S.f (y S.tInit 0) (y S.tInit 1) (y S.tInit 2) := by
  intro t ht
  have e := unique hF hI hc (hex t ht).2 hy ht (hex t ht).1 S.tInit hto
  unfold callOne
  by_cases h : S.tInit = t
  · rw [if_pos h, h]; rfl
  · rw [if_neg h, e]
    simp only [if_neg (not_le.2 (hy S.tInit hto).1)]
    rfl

/-- An initial density that is the same all along every orbit (a steady state) does not evolve. -/
theorem C83_steady {F : Force} {I : Set ℝ} {S : Setup} (hto : S.tInit ∈ I)
    (hst : ∀ y, IsOrbitOn F I y → ∀ s ∈ I, ∀ t ∈ I,
      S.f (y s 0) (y s 1) (y s 2) = S.f (y t 0) (y t 1) (y t 2))
    {w : Phase} {t : ℝ} (ht : t ∈ I) (hex : Exact F S.integ I w t) :
    callOne S w t = S.f (w 0) (w 1) (w 2) := by
  have e := hst _ hex.2 S.tInit hto t ht
  rw [hex.1] at e
  unfold callOne
  by_cases h : S.tInit = t
  · rw [if_pos h]; rfl
  · rw [if_neg h]
    simp only [if_neg (not_le.2 (hex.2 S.tInit hto).1)]
    exact e

/-- `log=True` gives the logarithm of the density wherever that is positive. -/
theorem C83_log {S : Setup} {w : Phase} {t d : ℝ} (h : callOne S w t = some d) (hd : 0 < d)
    (hR : 0 < S.integ w t S.tInit 0) : callOneLog S w t = some (Real.log d) := by
  unfold callOne at h
  unfold callOneLog
  by_cases h1 : S.tInit = t
  · rw [if_pos h1] at h
    simp [h1, h, hd]
  · rw [if_neg h1, if_neg (not_le.2 hR)] at h
    simp only [if_neg h1, if_neg (not_le.2 hR), h]
    rw [if_neg (by simpa using hd.ne')]
    simp [hd]

/-- A list of times with `odeint`, in a force that does not depend on time: for every list in descending
order that ends no earlier than the initial time and does not start with it, the values are those of the
single times. -/
theorem C83_list_odeint_partial {F : Force} (hF : LocLip F) (hA : Autonomous F) {I : Set ℝ} (hI : IsOpen I)
    (hc : IsPreconnected I) (h0 : (0:ℝ) ∈ I) {S : Setup} {w : Phase}
    (hex : ∀ s, Exact F S.integ {t | t - s ∈ I} w s) {t0 : ℝ} {l : List ℝ}
    (hd : (t0 :: l).Pairwise (· ≥ ·)) (hto : ∀ t ∈ t0 :: l, S.tInit ≤ t) (hne : S.tInit ≠ t0)
    (hI' : ∀ t ∈ t0 :: l, S.tInit - t ∈ I) :
    callList S .odeint w (t0 :: l) = .ok ((t0 :: l).map (callOne S w)) := by
  have hmax := amax_eq hd
  have h1 := (List.pairwise_cons.1 hd).1
  simp only [callList, if_neg hne, createTs, sortDesc_eq hd, ne_eq, not_true_eq_false, if_false, hmax]
  rw [head_sortDesc (a := t0) (List.mem_append_left _ (left_mem_linspace (by norm_num)))]
  · congr 1
    refine List.map_congr_left fun t ht => ?_
    exact callOne_eq hF hA hI hc h0 hex (hI' t ht) t0
  · intro b hb
    rcases List.mem_append.1 hb with hb | hb
    · exact mem_linspace_le (hto t0 (by simp)) (by norm_num) b hb
    · simp only [List.mem_map, List.mem_filter] at hb
      obtain ⟨ti, ⟨hti, -⟩, rfl⟩ := hb
      linarith [hto ti hti]

/-- A list of times with any other method (the default `dopr54_c` for potentials with a C
implementation), in a force that does not depend on time: the values are those of the single times, with
NaN replaced by zero, for every list in descending order that does not start with the initial time and
either has one entry, not before the initial time, or ends with the initial time. -/
theorem C83_list_c_partial {F : Force} (hF : LocLip F) (hA : Autonomous F) {I : Set ℝ} (hI : IsOpen I)
    (hc : IsPreconnected I) (h0 : (0:ℝ) ∈ I) {S : Setup} {w : Phase} {m : Meth} (hm : m ≠ .odeint)
    (hex : ∀ s, Exact F S.integ {t | t - s ∈ I} w s) {t0 : ℝ} {l : List ℝ}
    (hd : (t0 :: l).Pairwise (· ≥ ·)) (hto : ∀ t ∈ t0 :: l, S.tInit ≤ t) (hne : S.tInit ≠ t0)
    (hlast : l = [] ∨ S.tInit ∈ l) (hI' : ∀ t ∈ t0 :: l, S.tInit - t ∈ I) :
    callList S m w (t0 :: l) = .ok ((t0 :: l).map fun t => some ((callOne S w t).getD 0)) := by
  have hmax := amax_eq hd
  have h1 := (List.pairwise_cons.1 hd).1
  have hlt : S.tInit < t0 := lt_of_le_of_ne (hto t0 (by simp)) hne
  have m1 : ∀ {α : Type} (a b : α), (match m with | .odeint => a | _ => b) = b := by
    intro α a b; cases m <;> first | rfl | exact absurd rfl hm
  cases l with
  | nil =>
    have e : sortDesc [t0, S.tInit] = [t0, S.tInit] := sortDesc_eq (by simp [hlt.le])
    have := callOne_eq hF hA hI hc h0 hex (hI' t0 (by simp)) t0
    rw [add_sub_cancel_right] at this
    cases m <;> first
      | exact absurd rfl hm
      | (simp only [callList, if_neg hne, createTs, sortDesc_eq hd, ne_eq, not_true_eq_false, if_false, e,
          List.headD_cons, List.map_cons, List.map_nil]
         simp only [List.getD_cons_succ, List.getD_cons_zero, nanToZero, this])
  | cons t1 l =>
    have hmem : S.tInit ∈ t1 :: l := by
      rcases hlast with h | h
      · exact absurd h (by simp)
      · exact h
    have hasc : ((t0 :: t1 :: l).map fun ti => -ti + S.tInit + t0).Pairwise (· ≤ ·) := by
      rw [List.pairwise_map]
      exact hd.imp fun {a b} h => by linarith
    have hhead : (sortDesc ((t0 :: t1 :: l).map fun ti => -ti + S.tInit + t0)).headD 0 = t0 := by
      refine head_sortDesc ?_ ?_
      · rw [List.mem_map]
        exact ⟨S.tInit, by simp [List.mem_cons.1 hmem], by ring⟩
      · intro b hb
        obtain ⟨ti, hti, rfl⟩ := List.mem_map.1 hb
        linarith [hto ti hti]
    have fin : ((((sortDesc ((t0 :: t1 :: l).map fun ti => -ti + S.tInit + t0)).map (S.integ w t0)).map
        fun y => nanToZero (S.init y)).reverse)
        = (t0 :: t1 :: l).map fun t => some ((callOne S w t).getD 0) := by
      rw [sortDesc_reverse hasc, ← List.map_reverse, ← List.map_reverse, List.reverse_reverse, List.map_map,
        List.map_map]
      refine List.map_congr_left fun t ht => ?_
      have := callOne_eq hF hA hI hc h0 hex (hI' t ht) t0
      simp only [Function.comp, nanToZero]
      rw [← this]
      congr 4
      ring
    cases m <;> first
      | exact absurd rfl hm
      | (simp only [callList, if_neg hne, createTs, sortDesc_eq hd, ne_eq, not_true_eq_false, if_false, hmax]
         simp only [hhead, fin])

/-! ### Lists of times for which the values are wrong -/

namespace C83aux
open Real

/-- Constructor arguments of a frame with acceleration `a`, not rotating. -/
def frameArgs (a : NonInertial.Freq Spec.Vec) : NonInertial.Args := ⟨1, .none, none, none, some a⟩

/-- The object it makes. -/
def frame (a : ℝ → Spec.Vec) : NonInertial.Frame := ⟨1, .none, some a, none⟩

theorem frame_const (a : Spec.Vec) :
    NonInertial.init (frameArgs (.const a)) = .ok (frame fun _ => a) := rfl

theorem frame_func (a : ℝ → Spec.Vec) : NonInertial.init (frameArgs (.func a)) = .ok (frame a) := rfl

theorem frame_R (a : ℝ → Spec.Vec) (R t : ℝ) (v : Fin 3 → ℝ) :
    (NonInertial.toForce (frame a)).R R 0 0 t v = -a t 0 := by
  simp [NonInertial.toForce, NonInertial.call, NonInertial.force, NonInertial.component, NonInertial.forceXYZ,
    NonInertial.rotTerms, frame]

theorem frame_phi (a : ℝ → Spec.Vec) (R t : ℝ) (v : Fin 3 → ℝ) :
    (NonInertial.toForce (frame a)).phi R 0 0 t v = -(R * a t 1) := by
  simp [NonInertial.toForce, NonInertial.call, NonInertial.force, NonInertial.component, NonInertial.forceXYZ,
    NonInertial.rotTerms, frame]

theorem frame_autonomous (a : Spec.Vec) : Autonomous (NonInertial.toForce (frame fun _ => a)) := by
  intro R φ t t' v
  simp [NonInertial.toForce, NonInertial.call, NonInertial.force, NonInertial.component, NonInertial.forceXYZ,
    NonInertial.rotTerms, frame, NonInertial.Input.pos, NonInertial.Input.vel]

/-- Motion along the `x` axis. -/
theorem radial_orbit {a : ℝ → Spec.Vec} (ha : ∀ t, a t 1 = 0) {I : Set ℝ} {r v : ℝ → ℝ}
    (hr : ∀ t ∈ I, 0 < r t) (h1 : ∀ t ∈ I, HasDerivAt r (v t) t)
    (h2 : ∀ t ∈ I, HasDerivAt v (-a t 0) t) :
    IsOrbitOn (NonInertial.toForce (frame a)) I (fun t => ![r t, v t, 0, 0]) := by
  intro t ht
  refine ⟨hr t ht, ?_⟩
  have e1 : (fun s => toY ((fun t => ![r t, v t, 0, 0] : ℝ → Phase) s)) = fun s => ![r s, v s, 0, 0] := by
    funext s i; fin_cases i <;> simp [toY]
  rw [e1]
  have e2 : EOM.planar (NonInertial.toForce (frame a)) t (toY ![r t, v t, 0, 0]) = ![v t, -a t 0, 0, 0] := by
    funext i
    fin_cases i <;> simp [toY, EOM.planar, frame_R, frame_phi, ha]
  show HasDerivAt _ (EOM.planar (NonInertial.toForce (frame a)) t (toY ![r t, v t, 0, 0])) t
  rw [e2, hasDerivAt_pi]
  intro i
  fin_cases i
  · exact h1 t ht
  · exact h2 t ht
  · exact hasDerivAt_const t 0
  · exact hasDerivAt_const t 0

/-- Exact motion with acceleration 1 along the `x` axis. -/
def integC (w : Phase) (s t : ℝ) : Phase := ![w 0 + w 1 * (t - s) + (t - s) ^ 2 / 2, w 1 + (t - s), 0, 0]

theorem integC_exact (s : ℝ) :
    Exact (NonInertial.toForce (frame fun _ => ![-1, 0, 0])) integC Set.univ ![2, 0, 0, 0] s := by
  refine ⟨by funext i; fin_cases i <;> simp [integC], ?_⟩
  refine radial_orbit (r := fun t => (![2, 0, 0, 0] : Phase) 0 + (![2, 0, 0, 0] : Phase) 1 * (t - s) + (t - s) ^ 2 / 2)
    (v := fun t => (![2, 0, 0, 0] : Phase) 1 + (t - s)) (fun _ => rfl) ?_ ?_ ?_
  · intro t _; simp; positivity
  · intro t _
    have h : HasDerivAt (fun t : ℝ => t - s) 1 t := (hasDerivAt_id t).sub_const s
    exact (((h.const_mul ((![2, 0, 0, 0] : Phase) 1)).const_add _).add ((h.pow 2).div_const 2)).congr_deriv
      (by simp)
  · intro t _
    exact (((hasDerivAt_id t).sub_const s).const_add _).congr_deriv (by simp)

/-- Exact motion with acceleration `t` along the `x` axis. -/
def integT (w : Phase) (s t : ℝ) : Phase :=
  ![w 0 + w 1 * (t - s) + (t ^ 3 - s ^ 3) / 6 - s ^ 2 * (t - s) / 2, w 1 + (t ^ 2 - s ^ 2) / 2, 0, 0]

theorem integT_exact {s : ℝ} (hs : s ∈ Set.Ioo (-3 : ℝ) 1) :
    Exact (NonInertial.toForce (frame fun t => ![-t, 0, 0])) integT (Set.Ioo (-3) 1) ![100, 0, 0, 0] s := by
  refine ⟨by funext i; fin_cases i <;> simp [integT], ?_⟩
  refine radial_orbit
    (r := fun t => (![100, 0, 0, 0] : Phase) 0 + (![100, 0, 0, 0] : Phase) 1 * (t - s) + (t ^ 3 - s ^ 3) / 6
      - s ^ 2 * (t - s) / 2)
    (v := fun t => (![100, 0, 0, 0] : Phase) 1 + (t ^ 2 - s ^ 2) / 2) (fun _ => rfl) ?_ ?_ ?_
  · intro t ht
    obtain ⟨h1, h2⟩ := hs
    obtain ⟨h3, h4⟩ := ht
    have a1 : |t| ≤ 3 := abs_le.2 ⟨by linarith, by linarith⟩
    have a2 : |s| ≤ 3 := abs_le.2 ⟨by linarith, by linarith⟩
    have b1 : |t ^ 3| ≤ 27 := by
      rw [abs_pow]; calc |t| ^ 3 ≤ 3 ^ 3 := pow_le_pow_left₀ (abs_nonneg _) a1 3
        _ = 27 := by norm_num
    have b2 : |s ^ 3| ≤ 27 := by
      rw [abs_pow]; calc |s| ^ 3 ≤ 3 ^ 3 := pow_le_pow_left₀ (abs_nonneg _) a2 3
        _ = 27 := by norm_num
    have b3 : |s ^ 2 * (t - s)| ≤ 9 * 6 := by
      rw [abs_mul, abs_pow]
      refine mul_le_mul ?_ ?_ (abs_nonneg _) (by norm_num)
      · calc |s| ^ 2 ≤ 3 ^ 2 := pow_le_pow_left₀ (abs_nonneg _) a2 2
          _ = 9 := by norm_num
      · exact abs_le.2 ⟨by linarith, by linarith⟩
    have := abs_le.1 b1
    have := abs_le.1 b2
    have := abs_le.1 b3
    simp
    linarith
  · intro t _
    have h : HasDerivAt (fun t : ℝ => t - s) 1 t := (hasDerivAt_id t).sub_const s
    have hc : HasDerivAt (fun t : ℝ => t ^ 3 - s ^ 3) (3 * t ^ 2) t := by
      simpa using (hasDerivAt_pow 3 t).sub_const (s ^ 3)
    exact ((((h.const_mul ((![100, 0, 0, 0] : Phase) 1)).const_add _).add (hc.div_const 6)).sub
      ((h.const_mul (s ^ 2)).div_const 2)).congr_deriv (by simp; ring)
  · intro t _
    have hc : HasDerivAt (fun t : ℝ => t ^ 2 - s ^ 2) (2 * t) t := by
      simpa using (hasDerivAt_pow 2 t).sub_const (s ^ 2)
    exact ((hc.div_const 2).const_add _).congr_deriv (by simp)

end C83aux

/-- With every method other than `odeint` (so with the default method for potentials with a C
implementation) a list of times that does not end with the initial time gives wrong values, even in a
force that does not depend on time: the orbit is integrated for the time between the first and the last
entry of the list only. In the frame with constant acceleration `[-1, 0, 0]`, with initial time -2 and
the list `[0, -1]`, the value returned for `t = 0` is the initial density at `R = 2.5`, the orbit's
position one unit of time before, instead of `R = 4`, its position at the initial time. -/
theorem C83_list_c_fails :
    ∃ (F : Force) (S : Setup) (w : Phase),
      NonInertial.init (frameArgs (.const ![-1, 0, 0])) = .ok (frame fun _ => ![-1, 0, 0]) ∧
      F = NonInertial.toForce (frame fun _ => ![-1, 0, 0]) ∧ Autonomous F ∧
      (∀ s, Exact F S.integ Set.univ w s) ∧ S.tInit = -2 ∧
      (∀ m, m ≠ .odeint → callList S m w [0, -1] = .ok [some (5 / 2), some 2]) ∧
      [0, -1].map (callOne S w) = [some 4, some (5 / 2)] := by
  refine ⟨_, ⟨fun R _ _ => some R, -2, integC⟩, ![2, 0, 0, 0], frame_const _, rfl, frame_autonomous _,
    fun s => integC_exact s, rfl, fun m hm => ?_, ?_⟩
  · have hd : ([0, -1] : List ℝ).Pairwise (· ≥ ·) := by simp
    have e1 : amax 0 [-1] = 0 := amax_eq hd
    have e2 : sortDesc ([0, -1].map fun ti : ℝ => -ti + -2 + 0) = [-1, -2] := by
      have : ([0, -1].map fun ti : ℝ => -ti + -2 + 0) = [-2, -1] := by simp; norm_num
      rw [this, sortDesc_reverse (by simp)]; rfl
    have e3 : (-2 : ℝ) ≠ 0 := by norm_num
    cases m <;> first
      | exact absurd rfl hm
      | (simp only [callList, createTs, sortDesc_eq hd, ne_eq, not_true_eq_false, if_false, e1, e2, e3]
         simp [integC, Setup.init, nanToZero]
         norm_num)
  · simp [callOne, integC, Setup.init]
    norm_num

/-- In a force that depends on time a list of times gives wrong values with every method, even if it ends
with the initial time: the value for each time is computed from the orbit that starts at the first time
of the list. In the frame with acceleration `[-t, 0, 0]`, with initial time -2 and the list
`[0, -1, -2]`, the value for `t = -1` is the initial density at `R = 100 - 1/6` instead of
`R = 100 - 2/3`. -/
theorem C83_list_time_fails :
    ∃ (F : Force) (S : Setup) (w : Phase),
      NonInertial.init (frameArgs (.func fun t => ![-t, 0, 0])) = .ok (frame fun t => ![-t, 0, 0]) ∧
      F = NonInertial.toForce (frame fun t => ![-t, 0, 0]) ∧
      (∀ s ∈ Set.Ioo (-3 : ℝ) 1, Exact F S.integ (Set.Ioo (-3) 1) w s) ∧ S.tInit = -2 ∧
      (∀ m, callList S m w [0, -1, -2] = .ok [some (100 - 4 / 3), some (100 - 1 / 6), some 100]) ∧
      [0, -1, -2].map (callOne S w) = [some (100 - 4 / 3), some (100 - 2 / 3), some 100] := by
  refine ⟨_, ⟨fun R _ _ => some R, -2, integT⟩, ![100, 0, 0, 0], frame_func _, rfl,
    fun s hs => integT_exact hs, rfl, fun m => ?_, ?_⟩
  · have hd : ([0, -1, -2] : List ℝ).Pairwise (· ≥ ·) := by simp
    have e1 : amax 0 [-1, -2] = 0 := amax_eq hd
    have e2 : sortDesc ([0, -1, -2].map fun ti : ℝ => -ti + -2 + 0) = [0, -1, -2] := by
      have : ([0, -1, -2].map fun ti : ℝ => -ti + -2 + 0) = [-2, -1, 0] := by simp; norm_num
      rw [this, sortDesc_reverse (by simp)]; rfl
    have e3 : (-2 : ℝ) ≠ 0 := by norm_num
    cases m
    · simp only [callList, createTs, sortDesc_eq hd, ne_eq, not_true_eq_false, if_false, e1, e3]
      rw [head_sortDesc (a := 0) (List.mem_append_left _ (left_mem_linspace (by norm_num)))]
      · simp [integT, Setup.init]
        norm_num
      · intro b hb
        rcases List.mem_append.1 hb with hb | hb
        · exact mem_linspace_le (by norm_num) (by norm_num) b hb
        · simp only [List.mem_map, List.mem_filter] at hb
          obtain ⟨ti, ⟨hti, -⟩, rfl⟩ := hb
          simp at hti
          rcases hti with rfl | rfl | rfl <;> norm_num
    all_goals
      simp only [callList, createTs, sortDesc_eq hd, ne_eq, not_true_eq_false, if_false, e1, e2, e3]
      simp [integT, Setup.init, nanToZero]
      norm_num
  · simp [callOne, integT, Setup.init]
    norm_num

/-- A list that starts with the initial time gives one value, whatever its length. -/
theorem C83_list_first_fails (S : Setup) (m : Meth) (w : Phase) (l : List ℝ) (hl : l ≠ []) :
    ∃ r, callList S m w (S.tInit :: l) = .ok r ∧ r.length ≠ (S.tInit :: l).length := by
  refine ⟨[S.init w], by simp [callList], ?_⟩
  cases l with
  | nil => exact absurd rfl hl
  | cons a l => simp

/-! ### Derivatives -/

/-- `deriv="R"` and `deriv="phi"` return the derivative of the density at time `t`, when the initial
density has the logarithmic derivatives it claims and the deviations are integrated exactly: `dinteg` is
linear in the deviation and is the derivative of the orbit with respect to its initial state. -/
theorem C83_deriv {S : DSetup} {d : Dir} {w : Phase} {t : ℝ}
    (hR : 0 < S.integ w t S.tInit 0)
    (hf : ∀ R vR vT, 0 < R → ∃ D : (ℝ × ℝ × ℝ) →L[ℝ] ℝ,
      HasFDerivAt (fun p : ℝ × ℝ × ℝ => S.f p.1 p.2.1 p.2.2) D (R, vR, vT) ∧
      ∀ a b c, D (a, b, c) = S.f R vR vT * (S.fR R vR vT * a + S.fvR R vR vT * b + S.fvT R vR vT * c))
    (hlin : ∀ (c : ℝ) (u : Phase), S.dinteg w (c • u) t S.tInit = c • S.dinteg w u t S.tInit)
    (hint : HasDerivAt (fun x => S.integ (Function.update w d.idx x) t S.tInit)
      (S.dinteg w (Pi.single d.idx 1) t S.tInit) (w d.idx))
    (hid : S.tInit = t → 0 < w 0) :
    HasDerivAt (fun x => (callOne S.toSetup (Function.update w d.idx x) t).getD 0) (callDeriv S d w t)
      (w d.idx) := by
  by_cases h : S.tInit = t
  · obtain ⟨D, hD, hD'⟩ := hf (w 0) (w 1) (w 2) (hid h)
    cases d with
    | R =>
      have e : ∀ x, (callOne S.toSetup (Function.update w Dir.R.idx x) t).getD 0 = S.f x (w 1) (w 2) := by
        intro x
        have h' : S.toSetup.tInit = t := h
        simp only [callOne, if_pos h']
        simp [Setup.init, DSetup.toSetup, Dir.idx]
      rw [funext e]
      simp only [callDeriv, if_pos h, Dir.idx]
      have := hD.comp_hasDerivAt_of_eq (w 0) (f := fun x => (x, w 1, w 2)) (f' := (1, 0, 0))
        ((hasDerivAt_id _).prodMk (hasDerivAt_const _ _)) rfl
      rw [hD'] at this
      exact this.congr_deriv (by ring)
    | phi =>
      have e : ∀ x, (callOne S.toSetup (Function.update w Dir.phi.idx x) t).getD 0 = S.f (w 0) (w 1) (w 2) := by
        intro x
        have h' : S.toSetup.tInit = t := h
        simp only [callOne, if_pos h']
        simp [Setup.init, DSetup.toSetup, Dir.idx]
      rw [funext e]
      simp only [callDeriv, if_pos h]
      exact hasDerivAt_const _ _
  · set y := S.integ w t S.tInit with hy
    set u := S.dinteg w (Pi.single d.idx 1) t S.tInit with hu
    have hup : Function.update w d.idx (w d.idx) = w := Function.update_eq_self _ _
    obtain ⟨D, hD, hD'⟩ := hf (y 0) (y 1) (y 2) hR
    have comp := fun i => (hasDerivAt_pi.1 hint) i
    have hpos : ∀ᶠ x in nhds (w d.idx), 0 < S.integ (Function.update w d.idx x) t S.tInit 0 := by
      refine (comp 0).continuousAt.eventually (lt_mem_nhds ?_)
      beta_reduce
      rw [hup]; exact hR
    have e1 : (fun x => (callOne S.toSetup (Function.update w d.idx x) t).getD 0) =ᶠ[nhds (w d.idx)]
        fun x => S.f (S.integ (Function.update w d.idx x) t S.tInit 0)
          (S.integ (Function.update w d.idx x) t S.tInit 1) (S.integ (Function.update w d.idx x) t S.tInit 2) := by
      filter_upwards [hpos] with x hx
      have h' : ¬ S.toSetup.tInit = t := h
      have hx' : ¬ S.toSetup.integ (Function.update w d.idx x) t S.toSetup.tInit 0 ≤ 0 := not_le.2 hx
      simp only [callOne, if_neg h', if_neg hx']
      rfl
    have e2 : S.dinteg w (Pi.single d.idx dderiv) t S.tInit = dderiv • u := by
      rw [hu, ← hlin]
      congr 1
      funext i
      by_cases hi : i = d.idx
      · subst hi; simp
      · simp [hi]
    have hdd : dderiv ≠ 0 := by unfold dderiv; positivity
    have e3 : callDeriv S d w t = D (u 0, u 1, u 2) := by
      simp only [callDeriv, if_neg h, ← hy, if_neg (not_le.2 hR), e2, Pi.smul_apply, smul_eq_mul, hD']
      rw [mul_div_cancel_left₀ _ hdd, mul_div_cancel_left₀ _ hdd, mul_div_cancel_left₀ _ hdd]
    rw [e3]
    refine HasDerivAt.congr_of_eventuallyEq ?_ e1
    exact hD.comp_hasDerivAt_of_eq (w d.idx)
      (f := fun x => (S.integ (Function.update w d.idx x) t S.tInit 0,
          S.integ (Function.update w d.idx x) t S.tInit 1, S.integ (Function.update w d.idx x) t S.tInit 2))
      (f' := (u 0, u 1, u 2)) ((comp 0).prodMk ((comp 1).prodMk (comp 2))) (by simp only [hup]; rfl)

/-! ### Examples -/

namespace C83aux
open Real

/-- The force of a point mass. -/
def kepler : Force := ⟨fun R _ _ _ _ => -1 / R ^ 2, fun _ _ _ _ _ => 0, fun _ _ _ _ _ => 0⟩

theorem kepler_locLip : LocLip kepler := by
  refine locLip_of_contDiff fun t y hy => ?_
  rw [contDiffAt_pi]
  have h0 : (t, y).2 0 ≠ 0 := hy.ne'
  have c : ∀ i, ContDiffAt ℝ 1 (fun p : ℝ × (Fin 4 → ℝ) => p.2 i) (t, y) := fun i => by fun_prop
  intro i
  fin_cases i
  · exact c 1
  · exact ((((c 0).pow 2).mul (c 3)).pow 2).div ((c 0).pow 3) (pow_ne_zero 3 h0) |>.add
      (contDiffAt_const.div ((c 0).pow 2) (pow_ne_zero 2 h0))
  · exact c 3
  · exact (contDiffAt_const.div ((c 0).pow 2) (pow_ne_zero 2 h0)).mul
      (contDiffAt_const.sub (((contDiffAt_const.mul (c 0)).mul (c 1)).mul (c 3)))

theorem kepler_autonomous : Autonomous kepler := fun _ _ _ _ _ => ⟨rfl, rfl⟩

theorem circular (φ s : ℝ) (I : Set ℝ) : IsOrbitOn kepler I fun t => ![1, 0, 1, φ + t - s] := by
  intro t _
  refine ⟨one_pos, ?_⟩
  have e1 : (fun r => toY ((fun t => ![1, 0, 1, φ + t - s] : ℝ → Phase) r)) = fun r => ![1, 0, φ + r - s, 1] := by
    funext r i; fin_cases i <;> simp [toY]
  rw [e1]
  have e2 : EOM.planar kepler t (toY ![1, 0, 1, φ + t - s]) = ![0, 0, 1, 0] := by
    funext i; fin_cases i <;> simp [toY, EOM.planar, kepler]
  show HasDerivAt _ (EOM.planar kepler t (toY ![1, 0, 1, φ + t - s])) t
  rw [e2, hasDerivAt_pi]
  intro i
  fin_cases i
  · exact hasDerivAt_const t 1
  · exact hasDerivAt_const t 0
  · exact ((hasDerivAt_id t).const_add φ).sub_const s
  · exact hasDerivAt_const t 1

/-- Exact motion on the circular orbit of radius 1. -/
def integK (w : Phase) (s t : ℝ) : Phase := ![1, 0, 1, w 3 + t - s]

theorem integK_exact (φ s : ℝ) (I : Set ℝ) : Exact kepler integK I ![1, 0, 1, φ] s :=
  ⟨by funext i; fin_cases i <;> simp [integK], circular φ s I⟩

/-- A density: NaN for counter-rotating stars. -/
def exDf (R vR vT : ℝ) : Option ℝ := if vT < 0 then none else some (exp (-(R + vR ^ 2 + vT ^ 2)))

end C83aux

/-- The circular orbit of a point mass. -/
example : ∀ t ∈ Set.Ioo (-5 : ℝ) 5, callOne ⟨exDf, -3, integK⟩ ![1, 0, 1, 0 + t - 0] t = some (exp (-2)) := by
  have := C83_single kepler_locLip isOpen_Ioo isPreconnected_Ioo (S := ⟨exDf, -3, integK⟩)
    (by constructor <;> norm_num) (circular 0 0 (Set.Ioo (-5) 5)) (fun t _ => integK_exact _ t _)
  intro t ht
  rw [this t ht]
  simp [exDf]; norm_num

/-- A density of the angular momentum does not evolve in an axisymmetric force. -/
example (w : Phase) (t : ℝ) (integ : Phase → ℝ → ℝ → Phase) (h : Exact kepler integ Set.univ w t) :
    callOne ⟨fun R _ vT => some (exp (-(R * vT))), -3, integ⟩ w t = some (exp (-(w 0 * w 2))) := by
  refine C83_steady (S := ⟨fun R _ vT => some (exp (-(R * vT))), -3, integ⟩) (Set.mem_univ _) ?_ (Set.mem_univ t) h
  intro y hy s _ r _
  have hd : ∀ t, HasDerivAt (fun t => y t 0 * y t 2) 0 t := by
    intro t
    have h1 := fun i => hasDerivAt_pi.1 (hy t trivial).2 i
    have a := h1 0
    have b := h1 3
    have hp := (hy t trivial).1
    have hprod := (a.pow 2).mul b
    refine (hprod.congr_of_eventuallyEq (.of_forall fun r => ?_)).congr_deriv ?_
    · have := (hy r trivial).1
      simp only [toY, Pi.mul_apply, Pi.pow_apply]
      simp
      field_simp
    · simp [toY, EOM.planar, kepler]
      field_simp
      ring
  have : ∀ a b : ℝ, y a 0 * y a 2 = y b 0 * y b 2 :=
    is_const_of_deriv_eq_zero (fun t => (hd t).differentiableAt) (fun t => (hd t).deriv)
  simp only [this s r]

example : callOneLog ⟨exDf, -3, integK⟩ ![1, 0, 1, 0] 0 = some (log (exp (-2))) := by
  refine C83_log (S := ⟨exDf, -3, integK⟩) ?_ (exp_pos _) (by simp [integK])
  simp [callOne, integK, Setup.init, exDf]; norm_num

/-- Lists of times for which the theorems apply, with every method. -/
example (m : Meth) : callList ⟨exDf, -3, integK⟩ m ![1, 0, 1, 0] [1, -1, -3]
    = .ok [some (exp (-2)), some (exp (-2)), some (exp (-2))] := by
  have hv : ∀ t, callOne ⟨exDf, -3, integK⟩ ![1, 0, 1, 0] t = some (exp (-2)) := by
    intro t
    have : exDf 1 0 1 = some (exp (-2)) := by simp [exDf]; norm_num
    unfold callOne
    split_ifs
    · simp [Setup.init, this]
    · have h1 : ¬ integK ![1, 0, 1, 0] t (-3) 0 ≤ 0 := by simp [integK]
      simp only [if_neg h1]
      exact this
  have hd : ([1, -1, -3] : List ℝ).Pairwise (· ≥ ·) := by norm_num
  have hto : ∀ t ∈ ([1, -1, -3] : List ℝ), (-3 : ℝ) ≤ t := by simp; norm_num
  by_cases h : m = .odeint
  · subst h
    rw [C83_list_odeint_partial kepler_locLip kepler_autonomous isOpen_univ isPreconnected_univ trivial
      (S := ⟨exDf, -3, integK⟩) (fun s => integK_exact 0 s _) hd hto (by norm_num) (fun _ _ => trivial)]
    simp [hv]
  · rw [C83_list_c_partial kepler_locLip kepler_autonomous isOpen_univ isPreconnected_univ trivial
      (S := ⟨exDf, -3, integK⟩) h (fun s => integK_exact 0 s _) hd hto (by norm_num) (Or.inr (by simp))
      (fun _ _ => trivial)]
    simp [hv]

example : ∃ r, callList ⟨exDf, -3, integK⟩ .otherC ![1, 0, 1, 0] [-3, -4, -5] = .ok r ∧ r.length ≠ 3 :=
  C83_list_first_fails ⟨exDf, -3, integK⟩ .otherC _ [-4, -5] (by simp)

/-- Free radial motion and the density `exp (-R)`. -/
example : HasDerivAt
    (fun x => (callOne (DSetup.toSetup ⟨fun R _ _ => exp (-R), fun _ _ _ => -1, fun _ _ _ => 0, fun _ _ _ => 0, 0,
      fun w s t => ![w 0 + w 1 * (t - s), w 1, 0, w 3],
      fun _ u s t => ![u 0 + u 1 * (t - s), u 1, 0, u 3]⟩) (Function.update ![2, 1 / 2, 0, 0] Dir.R.idx x) 1).getD 0)
    (callDeriv ⟨fun R _ _ => exp (-R), fun _ _ _ => -1, fun _ _ _ => 0, fun _ _ _ => 0, 0,
      fun w s t => ![w 0 + w 1 * (t - s), w 1, 0, w 3],
      fun _ u s t => ![u 0 + u 1 * (t - s), u 1, 0, u 3]⟩ .R ![2, 1 / 2, 0, 0] 1)
    ((![2, 1 / 2, 0, 0] : Phase) Dir.R.idx) := by
  refine C83_deriv ?_ ?_ ?_ ?_ ?_
  · norm_num
  · intro R vR vT _
    have h : HasDerivAt (fun x : ℝ => exp (-x)) (-exp (-R)) R := by
      simpa using (hasDerivAt_neg R).exp
    refine ⟨_, h.comp_hasFDerivAt_of_eq (f := fun p : ℝ × ℝ × ℝ => p.1) (R, vR, vT) hasFDerivAt_fst rfl, ?_⟩
    intro a b c; simp
  · intro c u; funext i; fin_cases i <;> simp; ring
  · rw [hasDerivAt_pi]
    intro i
    fin_cases i
    · simpa [Dir.idx] using (hasDerivAt_id (2 : ℝ)).add_const (1 / 2 * (0 - 1) : ℝ)
    · simpa [Dir.idx] using hasDerivAt_const (2 : ℝ) (2⁻¹ : ℝ)
    · simpa [Dir.idx] using hasDerivAt_const (2 : ℝ) (0 : ℝ)
    · simpa [Dir.idx] using hasDerivAt_const (2 : ℝ) (0 : ℝ)
  · norm_num

end Verif
