import Verif.Props.C65

set_option autoImplicit false

/-!
# C65: the points returned by `SOS`
-/

open Set Filter Topology Real

namespace Verif
open SOS Coords

/-- An orbit followed in the angle, with its times, in a force that does not depend on time, and an
integrator that is exact along it: started at any point of the orbit, with any time, it returns the points
further on and the time that has passed. -/
structure C65Spec.Along {S : Type} (I : List ℝ → S → ℝ → List (S × ℝ)) (pos vel : S → ℝ)
    (γ : ℝ → S) (T : ℝ → ℝ) : Prop where
  angle : ∀ psi, ∃ A, 0 < A ∧ pos (γ psi) = A * sin psi ∧ vel (γ psi) = A * cos psi
  mono : StrictMono T
  exact : ∀ psis psi t, I psis (γ psi) t = psis.map fun d => (γ (psi + d), t + (T (psi + d) - T psi))

theorem C65aux.integrate {S : Type} {I : List ℝ → S → ℝ → List (S × ℝ)} {python : Bool} {n : ℕ}
    {t0 : T0} {o : Obj S} {ts : ℕ → ℝ} {s : ℕ → S} {P : ℕ → List ℝ} {f : ℕ → ℝ → S × ℝ}
    (ht : startTimes python n t0 = .ok ((List.range n).map ts)) (hv : o.vxvv = (List.range n).map s)
    (hI : ∀ j < n, I (P j) (s j) (ts j) = (P j).map (f j))
    (hP : ∀ j < n, (P j).Pairwise (· < ·))
    (hf : ∀ j < n, ∀ x ∈ P j, ∀ y ∈ P j, x < y → (f j x).2 < (f j y).2) :
    integrateSOS I python ((List.range n).map P) t0 o =
      (.ok (), { o with orbit := (List.range n).map fun j => (P j).map fun d => (f j d).1
                        t := (List.range n).map fun j => (P j).map fun d => (f j d).2 }) := by
  obtain ⟨vx, orb, tt⟩ := o
  simp only at hv
  subst hv
  have e : List.zipWith (fun p q => I p.1 p.2 q) (List.zip ((List.range n).map P) ((List.range n).map s))
      ((List.range n).map ts) = (List.range n).map fun j => (P j).map (f j) := by
    rw [List.zip_map', List.zipWith_map, List.zipWith_self]
    exact List.map_congr_left fun j hj => hI j (List.mem_range.1 hj)
  unfold integrateSOS
  simp only [List.length_map, List.length_range, ht, e, List.map_map, Function.comp_def]
  rw [if_pos]
  intro p hp
  rw [e, List.map_map, List.zip_map'] at hp
  obtain ⟨j, hj, rfl⟩ := List.mem_map.1 hp
  have hj := List.mem_range.1 hj
  simpa [Function.comp_def] using forward_map (f := fun d => (f j d).2) (hP j hj) (hf j hj)

theorem C65aux.atan2_angle {A psi : ℝ} (hA : 0 < A) (h : psi ∈ Ioc (-π) π) :
    atan2 (A * sin psi) (A * cos psi) = psi := by
  unfold atan2
  rw [show (⟨A * cos psi, A * sin psi⟩ : ℂ) = (A : ℂ) * (cos psi + sin psi * Complex.I) by
    apply Complex.ext <;> simp [← Complex.ofReal_cos, ← Complex.ofReal_sin]]
  simpa using Complex.arg_mul_cos_add_sin_mul_I hA h

theorem C65aux.pmod_turn {psi : ℝ} (h : psi ∈ Ioc (-π) π) :
    pmod (psi + 2 * π) (2 * π) = if psi < 0 then psi + 2 * π else psi := by
  have hp := Real.pi_pos
  unfold pmod
  split_ifs with h0
  · have : ⌊(psi + 2 * π) / (2 * π)⌋ = 0 := by
      rw [Int.floor_eq_zero_iff]
      constructor
      · have := h.1
        apply div_nonneg <;> linarith
      · rw [div_lt_one (by positivity)]
        linarith
    rw [this]; simp
  · have : ⌊(psi + 2 * π) / (2 * π)⌋ = 1 := by
      rw [Int.floor_eq_iff]
      push_cast
      have := h.2
      constructor
      · rw [le_div_iff₀ (by positivity)]; linarith
      · rw [div_lt_iff₀ (by positivity)]; linarith
    rw [this]; push_cast; ring

/-- The driver when some orbit starts off the surface, in terms of what the integrator returns. -/
theorem C65aux.run_off {S : Type} {I : List ℝ → S → ℝ → List (S × ℝ)} {pos vel : S → ℝ} {python fixed : Bool}
    {ncross skip n : ℕ} {t0 : T0} {o : Obj S} {ts psi : ℕ → ℝ} {s : ℕ → S} {f g : ℕ → ℝ → S × ℝ}
    (ht : startTimes python n t0 = .ok ((List.range n).map ts)) (hs : 0 < skip)
    (hv : o.vxvv = (List.range n).map s) (hpsi : ∀ j < n, psi j ∈ Ioc (-π) π)
    (hang : ∀ j < n, ∃ A, 0 < A ∧ pos (s j) = A * sin (psi j) ∧ vel (s j) = A * cos (psi j))
    (hoff : ∃ j < n, 1e-10 < |psi j|) {m : ℕ → ℤ} (hm : m = fun j => if psi j < 0 then 0 else 1)
    (hI1 : ∀ j < n, ∀ P, I P (s j) (ts j) = P.map (f j))
    (hf : ∀ j < n, ∀ x y, x < y → (f j x).2 < (f j y).2)
    (hI2 : ∀ j < n, ∀ P, I P (f j (2 * π * m j - psi j)).1 (ts j) = P.map (g j))
    (hg : ∀ j < n, ∀ x y, x < y → (g j x).2 < (g j y).2) :
    ∃ o' : Obj S, (∀ j < n, 2 * π * m j ∈ Ioc (psi j) (psi j + 2 * π)) ∧
      run I pos vel python fixed ncross skip t0 o = (.ok o'.orbit, o') ∧
      o'.orbit = ((List.range n).map fun j => (List.range ncross).map fun k : ℕ => (g j (2 * π * k)).1) ∧
      o'.t = ((List.range n).map fun j => (List.range ncross).map fun k : ℕ => (g j (2 * π * k)).2) ∧
      ((∃ j < n, 1e-7 < |psi j|) → o'.vxvv = o.vxvv) ∧
      ((∀ j < n, 0 ≤ psi j ∧ psi j ≤ 1e-7) →
        o'.vxvv = (List.range n).map fun j => (f j (2 * π * m j - psi j)).1) := by
  have hp := Real.pi_pos
  have hinit : (o.vxvv.map fun s => atan2 (pos s) (vel s)) = (List.range n).map psi := by
    rw [hv, List.map_map]
    refine List.map_congr_left fun j hj => ?_
    have hj := List.mem_range.1 hj
    obtain ⟨A, hA, h1, h2⟩ := hang j hj
    simp only [Function.comp_def, h1, h2]
    exact C65aux.atan2_angle hA (hpsi j hj)
  have hmr : ∀ j < n, 2 * π * m j ∈ Ioc (psi j) (psi j + 2 * π) := by
    intro j hj
    obtain ⟨h1, h2⟩ := hpsi j hj
    simp only [hm]
    split_ifs with h
    · constructor <;> push_cast <;> linarith
    · constructor <;> push_cast <;> linarith
  have hin : ¬ ∃ s ∈ o.vxvv, vel s = 0 ∧ |pmod (atan2 (pos s) (vel s)) π| ≤ 1e-10 := by
    rintro ⟨s, hs', h0, h1⟩
    rw [hv] at hs'
    obtain ⟨j, hj, rfl⟩ := List.mem_map.1 hs'
    have hj := List.mem_range.1 hj
    obtain ⟨A, hA, e1, e2⟩ := hang j hj
    have hc : cos (psi j) = 0 := by
      rw [e2] at h0
      exact (mul_eq_zero.1 h0).resolve_left hA.ne'
    rw [e1, e2, C65aux.atan2_angle hA (hpsi j hj)] at h1
    obtain ⟨k, hk⟩ := Real.cos_eq_zero_iff.1 hc
    have : pmod (psi j) π = π / 2 := by
      unfold pmod
      have : ⌊psi j / π⌋ = k := by
        rw [Int.floor_eq_iff, hk]
        constructor
        · rw [le_div_iff₀ hp]; nlinarith
        · rw [div_lt_iff₀ hp]; nlinarith
      rw [this, hk]; ring
    rw [this, abs_of_pos (by positivity)] at h1
    have := Real.two_le_pi
    norm_num at h1
    linarith
  have hinit' : ((List.range n).map psi).map (fun p => pmod (p + 2 * π) (2 * π)) =
      (List.range n).map fun j => 2 * π - (2 * π * m j - psi j) := by
    rw [List.map_map]
    refine List.map_congr_left fun j hj => ?_
    simp only [Function.comp_def, C65aux.pmod_turn (hpsi j (List.mem_range.1 hj)), hm]
    split_ifs <;> push_cast <;> ring
  have hJ1 := C65aux.integrate (I := I) (python := python) (o := o) (ts := ts) (t0 := t0)
    (P := fun j => linspace101 (2 * π * m j - psi j)) (f := f) ht hv
    (fun j hj => hI1 j hj _)
    (fun j hj => linspace_pairwise (by linarith [(hmr j hj).1]))
    (fun j hj x _ y _ h => hf j hj x y h)
  have hlast : (((List.range n).map fun j => (linspace101 (2 * π * m j - psi j)).map fun d => (f j d).1).filterMap
      List.getLast?) = (List.range n).map fun j => (f j (2 * π * m j - psi j)).1 := by
    rw [List.filterMap_map, ← List.filterMap_eq_map (f := fun j => (f j (2 * π * m j - psi j)).1)]
    refine List.filterMap_congr fun j hj => ?_
    simp only [Function.comp_def, List.getLast?_map, linspace_last, Option.map_some]
  set iskip : ℕ := if fixed then skip else 1 with hisk
  have hisk0 : 0 < iskip := by
    rw [hisk]
    split_ifs
    · exact hs
    · exact one_pos
  have hisk0' : (0 : ℝ) < iskip := by exact_mod_cast hisk0
  have hJ2 := C65aux.integrate (I := I) (python := python)
    (o := { o with vxvv := (List.range n).map fun j => (f j (2 * π * m j - psi j)).1,
                   orbit := (List.range n).map fun j => (linspace101 (2 * π * m j - psi j)).map fun d => (f j d).1,
                   t := (List.range n).map fun j => (linspace101 (2 * π * m j - psi j)).map fun d => (f j d).2 })
    (ts := ts) (t0 := t0)
    (P := fun _ => (List.range (ncross * iskip)).map fun i : ℕ => (i : ℝ) * 2 * π / iskip) (f := g) ht rfl
    (fun j hj => hI2 j hj _)
    (fun j hj => pairwise_range_map fun i k hik => by
      have : (i : ℝ) < k := by exact_mod_cast hik
      apply div_lt_div_of_pos_right _ hisk0'
      nlinarith)
    (fun j hj x _ y _ h => hg j hj x y h)
  have hrep : List.replicate n ((List.range (ncross * iskip)).map fun i : ℕ => (i : ℝ) * 2 * π / iskip) =
      (List.range n).map fun _ => (List.range (ncross * iskip)).map fun i : ℕ => (i : ℝ) * 2 * π / iskip := by
    rw [List.map_const', List.length_range]
  have hang' : ∀ k : ℕ, ((iskip * k : ℕ) : ℝ) * 2 * π / iskip = 2 * π * k := by
    intro k
    push_cast
    field_simp
  have hoff' : ∃ p ∈ (List.range n).map psi, |p| > 1e-10 := by
    obtain ⟨j, hj, h⟩ := hoff
    exact ⟨_, List.mem_map_of_mem (List.mem_range.2 hj), h⟩
  have hnot : (∀ j < n, 0 ≤ psi j ∧ psi j ≤ 1e-7) →
      ¬ ∃ p ∈ (List.range n).map fun j => 2 * π - (2 * π * m j - psi j), |p| > 1e-7 := by
    rintro hall ⟨p, hp', h⟩
    obtain ⟨j, hj, rfl⟩ := List.mem_map.1 hp'
    obtain ⟨h1, h2⟩ := hall j (List.mem_range.1 hj)
    simp only [hm, not_lt.2 h1, if_false] at h
    push_cast at h
    rw [show 2 * π - (2 * π * 1 - psi j) = psi j by ring, abs_of_nonneg h1] at h
    linarith
  have hback : (∃ j < n, 1e-7 < |psi j|) →
      ∃ p ∈ (List.range n).map fun j => 2 * π - (2 * π * m j - psi j), |p| > 1e-7 := by
    rintro ⟨j, hj, h⟩
    refine ⟨_, List.mem_map_of_mem (List.mem_range.2 hj), ?_⟩
    obtain ⟨h1, h2⟩ := hpsi j hj
    simp only [hm]
    have := Real.two_le_pi
    split_ifs with h0
    · push_cast
      rw [abs_of_pos (by linarith)]
      norm_num
      linarith
    · push_cast
      rw [show 2 * π - (2 * π * 1 - psi j) = psi j by ring]
      exact h
  have hrow : ∀ {β : Type} (h : ℝ → β), everyNth iskip ((List.range (ncross * iskip)).map fun i : ℕ =>
      h ((i : ℝ) * 2 * π / iskip)) = (List.range ncross).map fun k : ℕ => h (2 * π * k) := by
    intro β h
    rw [everyNth_map hisk0]
    exact List.map_congr_left fun k _ => by rw [hang']
  classical
  refine ⟨⟨if ∃ p ∈ (List.range n).map fun j => 2 * π - (2 * π * m j - psi j), |p| > 1e-7 then o.vxvv
      else (List.range n).map fun j => (f j (2 * π * m j - psi j)).1, _, _⟩, hmr, ?_, rfl, rfl,
      fun h => if_pos (hback h), fun h => if_neg (hnot h)⟩
  unfold run
  simp only [hinit]
  rw [if_neg hin]
  simp only [hoff', decide_true, if_true, hinit', List.map_map, Function.comp_def, sub_sub_cancel, hJ1, hlast,
    List.length_map, List.length_range, ← hisk, hrep, hJ2]
  split_ifs <;> simp <;> exact ⟨fun j _ => hrow (fun x => (g j x).1), fun j _ => hrow (fun x => (g j x).2)⟩

/-- The driver when every orbit starts on the surface, in terms of what the integrator returns. -/
theorem C65aux.run_on {S : Type} {I : List ℝ → S → ℝ → List (S × ℝ)} {pos vel : S → ℝ} {python fixed : Bool}
    {ncross skip n : ℕ} {t0 : T0} {o : Obj S} {ts : ℕ → ℝ} {s : ℕ → S} {g : ℕ → ℝ → S × ℝ}
    (ht : startTimes python n t0 = .ok ((List.range n).map ts)) (hs : 0 < skip)
    (hv : o.vxvv = (List.range n).map s)
    (hang : ∀ j < n, ∃ A, 0 < A ∧ pos (s j) = A * sin 0 ∧ vel (s j) = A * cos 0)
    (hI2 : ∀ j < n, ∀ P, I P (s j) (ts j) = P.map (g j))
    (hg : ∀ j < n, ∀ x y, x < y → (g j x).2 < (g j y).2) :
    ∃ o' : Obj S, run I pos vel python fixed ncross skip t0 o = (.ok o'.orbit, o') ∧
      o'.orbit = ((List.range n).map fun j => (List.range ncross).map fun k : ℕ => (g j (2 * π * k)).1) ∧
      o'.t = ((List.range n).map fun j => (List.range ncross).map fun k : ℕ => (g j (2 * π * k)).2) ∧
      o'.vxvv = o.vxvv := by
  have hp := Real.pi_pos
  have hinit : (o.vxvv.map fun s => atan2 (pos s) (vel s)) = (List.range n).map fun _ => (0 : ℝ) := by
    rw [hv, List.map_map]
    refine List.map_congr_left fun j hj => ?_
    have hj := List.mem_range.1 hj
    obtain ⟨A, hA, h1, h2⟩ := hang j hj
    simp only [Function.comp_def, h1, h2]
    exact C65aux.atan2_angle hA ⟨by linarith, hp.le⟩
  have hin : ¬ ∃ s ∈ o.vxvv, vel s = 0 ∧ |pmod (atan2 (pos s) (vel s)) π| ≤ 1e-10 := by
    rintro ⟨s, hs', h0, h1⟩
    rw [hv] at hs'
    obtain ⟨j, hj, rfl⟩ := List.mem_map.1 hs'
    obtain ⟨A, hA, e1, e2⟩ := hang j (List.mem_range.1 hj)
    rw [e2] at h0
    simp at h0
    exact hA.ne' h0
  have hoff : ¬ ∃ p ∈ (List.range n).map fun _ => (0 : ℝ), |p| > 1e-10 := by
    rintro ⟨p, hp', h⟩
    obtain ⟨j, _, rfl⟩ := List.mem_map.1 hp'
    norm_num at h
  set iskip : ℕ := if fixed then skip else 1 with hisk
  have hisk0 : 0 < iskip := by
    rw [hisk]
    split_ifs
    · exact hs
    · exact one_pos
  have hisk0' : (0 : ℝ) < iskip := by exact_mod_cast hisk0
  have hJ2 := C65aux.integrate (I := I) (python := python) (o := o)
    (ts := ts) (t0 := t0)
    (P := fun _ => (List.range (ncross * iskip)).map fun i : ℕ => (i : ℝ) * 2 * π / iskip) (f := g) ht hv
    (fun j hj => hI2 j hj _)
    (fun j hj => pairwise_range_map fun i k hik => by
      have : (i : ℝ) < k := by exact_mod_cast hik
      apply div_lt_div_of_pos_right _ hisk0'
      nlinarith)
    (fun j hj x _ y _ h => hg j hj x y h)
  have hrep : List.replicate n ((List.range (ncross * iskip)).map fun i : ℕ => (i : ℝ) * 2 * π / iskip) =
      (List.range n).map fun _ => (List.range (ncross * iskip)).map fun i : ℕ => (i : ℝ) * 2 * π / iskip := by
    rw [List.map_const', List.length_range]
  have hang' : ∀ k : ℕ, ((iskip * k : ℕ) : ℝ) * 2 * π / iskip = 2 * π * k := by
    intro k
    push_cast
    field_simp
  have hrow : ∀ {β : Type} (h : ℝ → β), everyNth iskip ((List.range (ncross * iskip)).map fun i : ℕ =>
      h ((i : ℝ) * 2 * π / iskip)) = (List.range ncross).map fun k : ℕ => h (2 * π * k) := by
    intro β h
    rw [everyNth_map hisk0]
    exact List.map_congr_left fun k _ => by rw [hang']
  have hl : o.vxvv.length = n := by rw [hv]; simp
  have hoff7 : ¬ ∃ p ∈ (List.range n).map fun _ => (0 : ℝ), |p| > 1e-7 := by
    rintro ⟨p, hp', h⟩
    obtain ⟨j, _, rfl⟩ := List.mem_map.1 hp'
    norm_num at h
  refine ⟨⟨o.vxvv, _, _⟩, ?_, rfl, rfl, rfl⟩
  unfold run
  simp only [hinit]
  rw [if_neg hin]
  simp only [hoff, decide_false, Bool.false_eq_true, if_false, hl, ← hisk, hrep, hJ2, hoff7]
  simp
  exact ⟨fun j _ => hrow (fun x => (g j x).1), fun j _ => hrow (fun x => (g j x).2)⟩

open C65Spec in
/-- The section: when some orbit starts off the surface, row `k` of every orbit is the orbit at its
`k`-th upward crossing after the start (angle `2 π (m + k)`, the first of them in the turn that follows the
start); the stored times are measured from the first crossing; the initial condition is put back when some
orbit starts more than `1e-7` off the surface. Missing: forces that depend on time, the true times and the
initial condition in every case, which are false (`C65_time_fails`, `C65_times_fails`,
`C65_initial_fails`, `C65_company_fails`). -/
theorem C65_section_partial {S : Type} {I : List ℝ → S → ℝ → List (S × ℝ)} {pos vel : S → ℝ} {python fixed : Bool}
    {ncross skip n : ℕ} {t0 : T0} {o : Obj S} {ts psi : ℕ → ℝ} {γ : ℕ → ℝ → S} {T : ℕ → ℝ → ℝ}
    (ht : startTimes python n t0 = .ok ((List.range n).map ts)) (hs : 0 < skip)
    (hv : o.vxvv = (List.range n).map fun j => γ j (psi j)) (hpsi : ∀ j < n, psi j ∈ Ioc (-π) π)
    (hγ : ∀ j < n, Along I pos vel (γ j) (T j)) (hoff : ∃ j < n, 1e-10 < |psi j|) :
    ∃ (m : ℕ → ℤ) (o' : Obj S), (∀ j < n, 2 * π * m j ∈ Ioc (psi j) (psi j + 2 * π)) ∧
      run I pos vel python fixed ncross skip t0 o = (.ok o'.orbit, o') ∧
      o'.orbit = ((List.range n).map fun j => (List.range ncross).map fun k : ℕ => γ j (2 * π * (m j + k))) ∧
      o'.t = ((List.range n).map fun j => (List.range ncross).map fun k : ℕ =>
        ts j + (T j (2 * π * (m j + k)) - T j (2 * π * m j))) ∧
      ((∃ j < n, 1e-7 < |psi j|) → o'.vxvv = o.vxvv) := by
  obtain ⟨o', h1, h2, h3, h4, h5, -⟩ := C65aux.run_off (I := I) (pos := pos) (vel := vel) (fixed := fixed)
    (ncross := ncross) (psi := psi) (s := fun j => γ j (psi j)) (m := fun j => if psi j < 0 then 0 else 1)
    (f := fun j d => (γ j (psi j + d), ts j + (T j (psi j + d) - T j (psi j))))
    (g := fun j d => (γ j (2 * π * ((if psi j < 0 then 0 else 1 : ℤ) : ℝ) + d), ts j + (T j (2 * π * ((if psi j < 0 then 0 else 1 : ℤ) : ℝ) + d) -
      T j (2 * π * ((if psi j < 0 then 0 else 1 : ℤ) : ℝ))))) ht hs hv hpsi (fun j hj => (hγ j hj).angle _) hoff rfl
    (fun j hj P => (hγ j hj).exact _ _ _)
    (fun j hj x y h => by
      have := (hγ j hj).mono (show psi j + x < psi j + y by linarith)
      simp only
      linarith)
    (fun j hj P => by
      simp only [add_sub_cancel]
      exact (hγ j hj).exact _ _ _)
    (fun j hj x y h => by
      have := (hγ j hj).mono (show 2 * π * ((if psi j < 0 then 0 else 1 : ℤ) : ℝ) + x <
        2 * π * ((if psi j < 0 then 0 else 1 : ℤ) : ℝ) + y by linarith)
      simp only
      linarith)
  refine ⟨_, o', h1, h2, ?_, ?_, h5⟩
  · simpa only [mul_add] using h3
  · simpa only [mul_add] using h4

open C65Spec in
/-- When every orbit starts on the surface, going up, row `k` is the orbit after `k` turns, the start
included, with its true time. -/
theorem C65_section_on {S : Type} {I : List ℝ → S → ℝ → List (S × ℝ)} {pos vel : S → ℝ} {python fixed : Bool}
    {ncross skip n : ℕ} {t0 : T0} {o : Obj S} {ts : ℕ → ℝ} {γ : ℕ → ℝ → S} {T : ℕ → ℝ → ℝ}
    (ht : startTimes python n t0 = .ok ((List.range n).map ts)) (hs : 0 < skip)
    (hv : o.vxvv = (List.range n).map fun j => γ j 0)
    (hγ : ∀ j < n, Along I pos vel (γ j) (T j)) :
    ∃ o' : Obj S, run I pos vel python fixed ncross skip t0 o = (.ok o'.orbit, o') ∧
      o'.orbit = ((List.range n).map fun j => (List.range ncross).map fun k : ℕ => γ j (2 * π * k)) ∧
      o'.t = ((List.range n).map fun j => (List.range ncross).map fun k : ℕ =>
        ts j + (T j (2 * π * k) - T j 0)) ∧ o'.vxvv = o.vxvv := by
  obtain ⟨o', h2, h3, h4, h5⟩ := C65aux.run_on (I := I) (pos := pos) (vel := vel) (fixed := fixed)
    (ncross := ncross) (s := fun j => γ j 0)
    (g := fun j d => (γ j (0 + d), ts j + (T j (0 + d) - T j 0))) ht hs hv (fun j hj => (hγ j hj).angle _)
    (fun j hj P => (hγ j hj).exact _ _ _)
    (fun j hj x y h => by
      have := (hγ j hj).mono (show 0 + x < 0 + y by linarith)
      simp only
      linarith)
  refine ⟨o', h2, ?_, ?_, h5⟩
  · simpa only [zero_add] using h3
  · simpa only [zero_add] using h4

/-! ## Autonomous forces -/

/-- A force that does not depend on time. -/
structure C65Spec.Autonomous (F : Force) : Prop where
  R : ∀ R z φ t t' v, F.R R z φ t v = F.R R z φ t' v
  phi : ∀ R z φ t t' v, F.phi R z φ t v = F.phi R z φ t' v
  z : ∀ R z φ t t' v, F.z R z φ t v = F.z R z φ t' v

/-- An integrator without error: it returns the rows and times of the solution through the row it is
given. -/
def C65Spec.Exact (F : Force) (I : List ℝ → (Fin 6 → ℝ) → ℝ → List ((Fin 6 → ℝ) × ℝ)) : Prop :=
  ∀ psis w t0 Y, (∀ N, C65Spec.Traj F Y (-N) N) → Y (initPsi w) = init w t0 →
    I psis w t0 = psis.map fun d => (back (Y (initPsi w + d)) (initPsi w + d), Y (initPsi w + d) 5)

theorem C65aux.force_time {F : Force} (hF : C65Spec.Autonomous F) (t t' : ℝ) (x v : Fin 3 → ℝ) :
    EOM.rectForceV F t x v = EOM.rectForceV F t' x v := by
  simp only [EOM.rectForceV, hF.R _ _ _ t t', hF.phi _ _ _ t t', hF.z _ _ _ t t']

open C65Spec in
theorem C65aux.shift {F : Force} (hF : Autonomous F) {Y : ℝ → Fin 6 → ℝ} (hY : ∀ N, Traj F Y (-N) N)
    (k : ℤ) (c : ℝ) :
    ∀ N, Traj F (fun s => ![Y (s + 2 * π * k) 0, Y (s + 2 * π * k) 1, Y (s + 2 * π * k) 2,
      Y (s + 2 * π * k) 3, Y (s + 2 * π * k) 4, Y (s + 2 * π * k) 5 + c]) (-N) N := by
  intro N
  have hall : ∀ s : ℝ, s ∈ Ioo (-(|s| + 1)) (|s| + 1) := fun s =>
    ⟨by linarith [neg_abs_le s], by linarith [le_abs_self s]⟩
  have hs : ∀ s : ℝ, sin (s + 2 * π * k) = sin s := fun s => by
    rw [mul_comm (2 * π)]; exact Real.sin_add_int_mul_two_pi s k
  have hc : ∀ s : ℝ, cos (s + 2 * π * k) = cos s := fun s => by
    rw [mul_comm (2 * π)]; exact Real.cos_add_int_mul_two_pi s k
  refine ⟨?_, ?_, ?_⟩
  · intro s _
    have h := (hY _).sol _ (hall (s + 2 * π * k))
    have D := fun i => (hasDerivAt_pi.1 h i).comp_add_const s (2 * π * k)
    simp only [EOM.sos, hs, hc] at D
    rw [hasDerivAt_pi]
    intro i
    simp only [EOM.sos, Matrix.cons_val, C65aux.force_time hF (Y (s + 2 * π * k) 5 + c) (Y (s + 2 * π * k) 5)]
    fin_cases i
    · exact D 0
    · exact D 1
    · exact D 2
    · exact D 3
    · exact D 4
    · exact (D 5).add_const c
  · intro s _
    exact (hY _).pos _ (hall (s + 2 * π * k))
  · intro s _
    have h := (hY _).fwd _ (hall (s + 2 * π * k))
    simp only [hs, hc] at h
    simpa only [Matrix.cons_val, C65aux.force_time hF (Y (s + 2 * π * k) 5 + c) (Y (s + 2 * π * k) 5)] using h

open C65Spec in
/-- For an exact integrator and a force that does not depend on time the section theorems apply to every
solution that keeps turning: the rows of the solution are an orbit followed in the angle. -/
theorem C65_along {F : Force} (hF : Autonomous F) {I : List ℝ → (Fin 6 → ℝ) → ℝ → List ((Fin 6 → ℝ) × ℝ)}
    (hI : Exact F I) {Y : ℝ → Fin 6 → ℝ} (hY : ∀ N, Traj F Y (-N) N) :
    Along I (fun w => w 3) (fun w => w 4) (fun psi => back (Y psi) psi) (fun psi => Y psi 5) := by
  have hall : ∀ s : ℝ, s ∈ Ioo (-(|s| + 1)) (|s| + 1) := fun s =>
    ⟨by linarith [neg_abs_le s], by linarith [le_abs_self s]⟩
  refine ⟨fun psi => ⟨Y psi 4, (hY _).pos _ (hall psi), rfl, rfl⟩, ?_, ?_⟩
  · intro x y h
    refine (C65_newton (hY (|x| + |y| + 1))).1 ⟨?_, ?_⟩ ⟨?_, ?_⟩ h
    · linarith [neg_abs_le x, abs_nonneg y]
    · linarith [le_abs_self x, abs_nonneg y]
    · linarith [neg_abs_le y, abs_nonneg x]
    · linarith [le_abs_self y, abs_nonneg x]
  · intro psis psi t
    have hA := (hY _).pos _ (hall psi)
    obtain ⟨k, hk⟩ : ∃ k : ℤ, psi = initPsi (back (Y psi) psi) + 2 * π * k := by
      have h1 := polar_cos (Y psi 4 * cos psi) (Y psi 4 * sin psi)
      have h2 := polar_sin (Y psi 4 * cos psi) (Y psi 4 * sin psi)
      rw [show (Y psi 4 * cos psi) ^ 2 + (Y psi 4 * sin psi) ^ 2 = Y psi 4 ^ 2 by
        linear_combination Y psi 4 ^ 2 * sin_sq_add_cos_sq psi, Real.sqrt_sq hA.le] at h1 h2
      have c1 := mul_left_cancel₀ hA.ne' h1
      have c2 := mul_left_cancel₀ hA.ne' h2
      obtain ⟨k, hk⟩ := angle_eq c1.symm c2.symm
      exact ⟨k, hk.trans (by simp only [initPsi, back, Matrix.cons_val]; ring)⟩
    have hs : ∀ s : ℝ, sin (s + 2 * π * k) = sin s := fun s => by
      rw [mul_comm (2 * π)]; exact Real.sin_add_int_mul_two_pi s k
    have hc : ∀ s : ℝ, cos (s + 2 * π * k) = cos s := fun s => by
      rw [mul_comm (2 * π)]; exact Real.cos_add_int_mul_two_pi s k
    rw [hI psis (back (Y psi) psi) t _ (C65aux.shift hF hY k (t - Y psi 5))]
    · refine List.map_congr_left fun d _ => ?_
      generalize initPsi (back (Y psi) psi) = q at hk ⊢
      have e : q + d + 2 * π * k = psi + d := by
        rw [hk]
        ring
      have e1 : sin (q + d) = sin (psi + d) := by rw [← e, hs]
      have e2 : cos (q + d) = cos (psi + d) := by rw [← e, hc]
      simp only [e, back, Matrix.cons_val, e1, e2]
      congr 1
      ring
    · rw [← hk, C65aux.init_back psi t hA.le]
      simp

/-! ## A case: the isotropic oscillator -/

/-- The force `-(x, y, z)`. -/
def C65aux.osc : Force := ⟨fun R _ _ _ _ => -R, fun _ _ _ _ _ => 0, fun _ z _ _ _ => -z⟩

/-- A circle seen from the side. -/
noncomputable def C65aux.circle (s : ℝ) : Fin 6 → ℝ := ![cos s, -sin s, sin s, cos s, 1, s]

open C65Spec in
example (N : ℝ) : Traj C65aux.osc C65aux.circle (-N) N := by
  have hR : ∀ s : ℝ, √(cos s ^ 2 + sin s ^ 2) = 1 := fun s => by simp
  have h : ∀ s : ℝ, cos s ^ 2 + sin s * sin s = 1 := fun s => by
    have := sin_sq_add_cos_sq s
    linarith [sq (sin s)]
  refine ⟨?_, fun s _ => ?_, fun s _ => ?_⟩
  · intro s _
    rw [hasDerivAt_pi]
    intro i
    fin_cases i
    · exact (hasDerivAt_cos s).congr_deriv (by
        simp [EOM.sos, C65aux.circle, EOM.rectForceV, C65aux.osc, h])
    · exact (hasDerivAt_sin s).neg.congr_deriv (by
        simp [EOM.sos, C65aux.circle, EOM.rectForceV, C65aux.osc, hR, h])
    · exact (hasDerivAt_sin s).congr_deriv (by
        simp [EOM.sos, C65aux.circle, EOM.rectForceV, C65aux.osc, h])
    · exact (hasDerivAt_cos s).congr_deriv (by
        simp [EOM.sos, C65aux.circle, EOM.rectForceV, C65aux.osc, hR, h])
    · exact (hasDerivAt_const s (1 : ℝ)).congr_deriv (by
        simp [EOM.sos, C65aux.circle, EOM.rectForceV, C65aux.osc, hR, h]
        ring)
    · exact (hasDerivAt_id s).congr_deriv (by
        simp [EOM.sos, C65aux.circle, EOM.rectForceV, C65aux.osc, h])
  · simp [C65aux.circle]
  · simp [C65aux.circle, EOM.rectForceV, C65aux.osc, ← sq]

example : C65Spec.Autonomous C65aux.osc := ⟨fun _ _ _ _ _ _ => rfl, fun _ _ _ _ _ _ => rfl, fun _ _ _ _ _ _ => rfl⟩

/-- Rows `(u, z, vz)` with `u` increasing at unit rate and an oscillation in `z`, with the exact
integrator: an orbit followed in the angle. -/
example : C65Spec.Along (S := ℝ × ℝ × ℝ)
    (fun psis s t => psis.map fun d => ((s.1 + d, s.2.1 * cos d + s.2.2 * sin d, s.2.2 * cos d - s.2.1 * sin d), t + d))
    (fun s => s.2.1) (fun s => s.2.2) (fun psi => (psi, 2 * sin psi, 2 * cos psi)) (fun psi => psi) := by
  refine ⟨fun psi => ⟨2, by norm_num, rfl, rfl⟩, strictMono_id, fun psis psi t => List.map_congr_left fun d _ => ?_⟩
  simp only [sin_add, cos_add, add_sub_cancel_left]
  refine Prod.ext (Prod.ext rfl (Prod.ext ?_ ?_)) rfl <;> simp only <;> ring

end Verif
