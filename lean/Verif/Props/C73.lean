import Verif.Model.NFWVirial
import Verif.Lemmas.Mass
import Mathlib.Analysis.Complex.ExponentialBounds
import Mathlib.Analysis.Calculus.Deriv.MeanValue

set_option autoImplicit false

/-!
# C73: virial quantities of the NFW potential and the constructors that use them
-/

noncomputable section
namespace Verif
open NFWVirial Real Set

namespace C73Spec
/-- Mean density within `r` of the NFW potential, in internal units. -/
def meanDens (o : Obj) (r : ℝ) : ℝ := o.amp * NFW.mass o.a r / (4 / 3 * π * r ^ 3)
/-- Mean density in units of the reference density of the convention `v` (critical or mean matter density). -/
def contrast (o : Obj) (vo ro : ℝ) (v : Virial) (r : ℝ) : ℝ :=
  meanDens o r * (if v.wrtcrit then Conversion.dens_in_criticaldens vo ro v.H
    else Conversion.dens_in_meanmatterdens vo ro v.H v.Om)
/-- The physical inputs are positive. -/
structure Good (o : Obj) (vo ro : ℝ) (v : Virial) : Prop where
  amp : 0 < o.amp
  a : 0 < o.a
  vo : 0 < vo
  ro : 0 < ro
  H : 0 < v.H
  Om : 0 < v.Om
  od : 0 < v.overdens
end C73Spec
open C73Spec

namespace C73aux
/-- The mass profile. -/
def m (y : ℝ) : ℝ := log (1 + y) - y / (1 + y)
theorem m_deriv {y : ℝ} (hy : 0 ≤ y) : HasDerivAt m (y / (1 + y) ^ 2) y := by
  have h1 : 0 < 1 + y := by linarith
  have hl : HasDerivAt (fun y : ℝ => 1 + y) 1 y := (hasDerivAt_id y).const_add 1
  have := (hl.log h1.ne').sub ((hasDerivAt_id y).div hl h1.ne')
  refine this.congr_deriv ?_
  simp only [id]; field_simp; ring
theorem m_pos {y : ℝ} (hy : 0 < y) : 0 < m y := by
  have mono : StrictMonoOn m (Ici 0) := by
    refine strictMonoOn_of_deriv_pos (convex_Ici 0) (fun x hx => (m_deriv hx).continuousAt.continuousWithinAt) fun x hx => ?_
    rw [interior_Ici] at hx
    have hx' : 0 < x := hx
    rw [(m_deriv hx'.le).deriv]
    positivity
  have := mono (mem_Ici.2 le_rfl) (mem_Ici.2 hy.le) hy
  simpa [m] using this
theorem m_mono : StrictMonoOn m (Ici 0) := by
  refine strictMonoOn_of_deriv_pos (convex_Ici 0) (fun x hx => (m_deriv hx).continuousAt.continuousWithinAt) fun x hx => ?_
  rw [interior_Ici] at hx
  have hx' : 0 < x := hx
  rw [(m_deriv hx'.le).deriv]
  positivity
theorem three {y : ℝ} (hy : 0 < y) : y ^ 2 / (1 + y) ^ 2 - 3 * m y < 0 := by
  have anti : StrictAntiOn (fun y => y ^ 2 / (1 + y) ^ 2 - 3 * m y) (Ici 0) := by
    have hd : ∀ x : ℝ, 0 ≤ x → HasDerivAt (fun y => y ^ 2 / (1 + y) ^ 2 - 3 * m y) (-(x * (1 + 3 * x) / (1 + x) ^ 3)) x := by
      intro x hx
      have h1 : 0 < 1 + x := by linarith
      have hl : HasDerivAt (fun y : ℝ => 1 + y) 1 x := (hasDerivAt_id x).const_add 1
      have := (((hasDerivAt_id x).pow 2).div (hl.pow 2) (pow_ne_zero 2 h1.ne')).sub ((m_deriv hx).const_mul 3)
      refine this.congr_deriv ?_
      simp only [id, Pi.pow_apply]; push_cast; field_simp; ring
    refine strictAntiOn_of_deriv_neg (convex_Ici 0) (fun x hx => (hd x hx).continuousAt.continuousWithinAt) fun x hx => ?_
    rw [interior_Ici] at hx
    have hx' : 0 < x := hx
    rw [(hd x hx'.le).deriv]
    have : 0 < x * (1 + 3 * x) / (1 + x) ^ 3 := by positivity
    linarith
  have := anti (mem_Ici.2 le_rfl) (mem_Ici.2 hy.le) hy
  simpa [m] using this
/-- The mean density decreases outwards. -/
theorem mean_anti : StrictAntiOn (fun y => m y / y ^ 3) (Ioi 0) := by
  have hd : ∀ x : ℝ, 0 < x → HasDerivAt (fun y => m y / y ^ 3) ((x ^ 2 / (1 + x) ^ 2 - 3 * m x) / x ^ 4) x := by
    intro x hx
    have := (m_deriv hx.le).div ((hasDerivAt_id x).pow 3) (pow_ne_zero 3 hx.ne')
    refine this.congr_deriv ?_
    simp only [id, Pi.pow_apply]; push_cast; field_simp
  refine strictAntiOn_of_deriv_neg (convex_Ioi 0) (fun x hx => (hd x hx).continuousAt.continuousWithinAt) fun x hx => ?_
  rw [interior_Ioi] at hx
  have hx' : 0 < x := hx
  rw [(hd x hx').deriv]
  exact div_neg_of_neg_of_pos (three hx') (by positivity)

theorem mass_eq (a y : ℝ) (ha : 0 < a) : NFW.mass a (y * a) = m y := by
  unfold NFW.mass m
  rw [mul_div_assoc, div_self ha.ne', mul_one]

variable {o : Obj} {vo ro : ℝ} {v : Virial}
theorem od_pos (g : Good o vo ro v) : 0 < v.od vo ro := by
  obtain ⟨h1, h2, h3, h4, h5, h6, h7⟩ := g
  unfold Virial.od Conversion.dens_in_meanmatterdens Conversion.dens_in_criticaldens
  split_ifs <;> positivity
theorem contrast_eq (g : Good o vo ro v) (r : ℝ) :
    contrast o vo ro v r = v.overdens ↔ meanDens o r = v.od vo ro := by
  obtain ⟨h1, h2, h3, h4, h5, h6, h7⟩ := g
  unfold contrast Virial.od
  have c : 0 < Conversion.dens_in_criticaldens vo ro v.H := by unfold Conversion.dens_in_criticaldens; positivity
  have c' : 0 < Conversion.dens_in_meanmatterdens vo ro v.H v.Om := by
    unfold Conversion.dens_in_meanmatterdens; positivity
  split_ifs
  · rw [eq_div_iff c.ne']
  · rw [eq_div_iff c'.ne']
theorem dens_a (g : Good o vo ro v) :
    12 * ((NFW.pot o.a).scale o.amp).dens o.a 0 0 0 / v.od vo ro = 3 * o.amp / (4 * π * o.a ^ 3) / v.od vo ro := by
  have ha := g.a
  simp only [Pot.scale, NFW.pot, Pot.axi, NFW.dens, zero_pow two_ne_zero, add_zero, sqrt_sq ha.le, div_self ha.ne', one_rpow]
  norm_num
  field_simp
  norm_num
  ring
/-- The equation solved. -/
theorem fun_eq (g : Good o vo ro v) {y : ℝ} (hy : 0 < y) :
    (log (1 + y) - y / (1 + y)) / y ^ 3 - 1 / (12 * ((NFW.pot o.a).scale o.amp).dens o.a 0 0 0 / v.od vo ro)
      = (meanDens o (y * o.a) - v.od vo ro) * (4 * π * o.a ^ 3 / (3 * o.amp)) := by
  have hod := od_pos g
  have ha := g.a
  have hA := g.amp
  rw [dens_a g, meanDens, mass_eq _ _ ha]
  unfold m
  field_simp
theorem meanDens_anti (g : Good o vo ro v) : StrictAntiOn (meanDens o) (Ioi 0) := by
  intro r hr s hs hrs
  have ha := g.a
  have hA := g.amp
  have hr' : 0 < r := hr
  have hs' : 0 < s := hs
  have h := mean_anti (mem_Ioi.2 (div_pos hr' ha)) (mem_Ioi.2 (div_pos hs' ha)) (div_lt_div_of_pos_right hrs ha)
  have e : ∀ x : ℝ, 0 < x → meanDens o x = m (x / o.a) / (x / o.a) ^ 3 * (o.amp / (4 / 3 * π * o.a ^ 3)) := by
    intro x hx
    have := mass_eq o.a (x / o.a) ha
    rw [div_mul_cancel₀ _ ha.ne'] at this
    rw [meanDens, this]
    field_simp
  rw [e r hr', e s hs']
  exact mul_lt_mul_of_pos_right h (by positivity)
end C73aux
open C73aux

/-- When `rvir` returns a radius, it is the one and only radius within which the mean density is the requested multiple of the
critical or mean matter density. -/
theorem C73_rvir {o : Obj} {vo ro : ℝ} {v : Virial} (g : Good o vo ro v) {r : ℝ} (h : Rvir o vo ro v (some r)) :
    0 < r ∧ contrast o vo ro v r = v.overdens ∧ ∀ s, 0 < s → contrast o vo ro v s = v.overdens → s = r := by
  obtain ⟨x, hx, e⟩ := h
  cases x with
  | none => simp at e
  | some y =>
    simp only [Option.map_some, Option.some.injEq] at e
    obtain ⟨-, h1, h2, h3⟩ := hx
    have hy : 0 < y := lt_of_lt_of_le (by norm_num) h1
    have h3 := (fun_eq g hy).symm.trans h3
    have hm : meanDens o r = v.od vo ro := by
      rcases mul_eq_zero.1 h3 with k | k
      · rw [e]; linarith
      · have := g.a; have := g.amp
        have : 0 < 4 * π * o.a ^ 3 / (3 * o.amp) := by positivity
        exact absurd k this.ne'
    have hr : 0 < r := by rw [e]; exact mul_pos hy g.a
    refine ⟨hr, (contrast_eq g r).2 hm, fun s hs k => ?_⟩
    exact (meanDens_anti g).injOn (mem_Ioi.2 hs) (mem_Ioi.2 hr) (((contrast_eq g s).1 k).trans hm.symm)

example : Good ⟨3, 2⟩ 220 8 ⟨70, 0.3, 200, false⟩ := by constructor <;> norm_num

/-- `rvir` fails exactly when the virial radius is less than `0.01 a` or more than `100 a`. -/
theorem C73_rvir_range {o : Obj} {vo ro : ℝ} {v : Virial} (g : Good o vo ro v) :
    (Rvir o vo ro v none ↔ ¬ ∃ r, 0.01 * o.a ≤ r ∧ r ≤ 100 * o.a ∧ contrast o vo ro v r = v.overdens) ∧
    ∃ out, Rvir o vo ro v out := by
  have ha := g.a
  have hA := g.amp
  have hk : 0 < 4 * π * o.a ^ 3 / (3 * o.amp) := by positivity
  set f := fun y => (log (1 + y) - y / (1 + y)) / y ^ 3
    - 1 / (12 * ((NFW.pot o.a).scale o.amp).dens o.a 0 0 0 / v.od vo ro) with hf
  have fe : ∀ y, 0 < y → f y = (meanDens o (y * o.a) - v.od vo ro) * (4 * π * o.a ^ 3 / (3 * o.amp)) :=
    fun y hy => fun_eq g hy
  have e1 := fe 0.01 (by norm_num)
  have e2 := fe 100 (by norm_num)
  have lt : meanDens o (100 * o.a) < meanDens o (0.01 * o.a) :=
    meanDens_anti g (mem_Ioi.2 (by positivity)) (mem_Ioi.2 (by positivity)) (by nlinarith)
  have hcont : ContinuousOn f (Icc 0.01 100) := by
    intro y hy
    have hy' : (0:ℝ) < y := lt_of_lt_of_le (by norm_num) hy.1
    have : ContinuousAt (fun y => m y / y ^ 3) y :=
      (m_deriv hy'.le).continuousAt.div (by fun_prop) (pow_ne_zero 3 hy'.ne')
    exact (this.sub continuousAt_const).continuousWithinAt
  have root : f 0.01 * f 100 ≤ 0 → ∃ y ∈ Icc (0.01:ℝ) 100, f y = 0 := by
    intro h
    have hle : f 100 ≤ f 0.01 := by rw [e1, e2]; nlinarith
    have h0 : (0:ℝ) ∈ Icc (f 100) (f 0.01) := by
      constructor
      · by_contra k; push Not at k; nlinarith
      · by_contra k; push Not at k; nlinarith
    exact intermediate_value_Icc' (by norm_num) hcont h0
  constructor
  · constructor
    · rintro ⟨x, hx, e⟩ ⟨r, h1, h2, h3⟩
      cases x with
      | some y => simp at e
      | none =>
        have hx' : 0 < f 0.01 * f 100 := hx
        have hm := (contrast_eq g r).1 h3
        have hr : 0 < r := lt_of_lt_of_le (by positivity) h1
        have a1 : meanDens o r ≤ meanDens o (0.01 * o.a) :=
          (meanDens_anti g).antitoneOn (mem_Ioi.2 (by positivity)) (mem_Ioi.2 hr) h1
        have a2 : meanDens o (100 * o.a) ≤ meanDens o r :=
          (meanDens_anti g).antitoneOn (mem_Ioi.2 hr) (mem_Ioi.2 (by positivity)) h2
        have p1 : 0 ≤ f 0.01 := by rw [e1]; exact mul_nonneg (by linarith) hk.le
        have p2 : f 100 ≤ 0 := by rw [e2]; exact mul_nonpos_of_nonpos_of_nonneg (by linarith) hk.le
        nlinarith
    · intro h
      refine ⟨none, ?_, rfl⟩
      show 0 < f 0.01 * f 100
      by_contra k
      push Not at k
      obtain ⟨y, hy, hy0⟩ := root k
      have hy' : (0:ℝ) < y := lt_of_lt_of_le (by norm_num) hy.1
      refine h ⟨y * o.a, by nlinarith [hy.1], by nlinarith [hy.2], (contrast_eq g _).2 ?_⟩
      rw [fe y hy'] at hy0
      rcases mul_eq_zero.1 hy0 with k | k
      · linarith
      · exact absurd k hk.ne'
  · by_cases h : 0 < f 0.01 * f 100
    · exact ⟨none, none, h, rfl⟩
    · push Not at h
      obtain ⟨y, hy, hy0⟩ := root h
      exact ⟨some (y * o.a), some y, ⟨h, hy.1, hy.2, hy0⟩, rfl⟩

example : ∃ out, Rvir ⟨3, 2⟩ 220 8 ⟨70, 0.3, 200, false⟩ out := (C73_rvir_range (by constructor <;> norm_num)).2

/-- An NFW potential made from a concentration between 0.01 and 100 and a virial mass has them: `conc` returns the
concentration, `mvir` the mass (`10^12` solar masses are `100` times `10^10`). -/
theorem C73_initVir {k : Conversion.Consts} (hk : k.Pos) {vo ro : ℝ} {v : Virial} {conc mvir : ℝ} (hvo : 0 < vo)
    (hro : 0 < ro) (hH : 0 < v.H) (hOm : 0 < v.Om) (hod : 0 < v.overdens) (hm : 0 < mvir) (h1 : 0.01 ≤ conc)
    (h2 : conc ≤ 100) (out : Option ℝ) :
    let o := initVir k vo ro v conc mvir
    (Conc o vo ro v out ↔ out = some conc) ∧
    (Mvir o vo ro v out ↔ ∃ M, out = some M ∧ M * Conversion.mass_in_1010msol k vo ro = 100 * mvir) := by
  intro o
  have hG := hk.G
  have hc : 0 < conc := lt_of_lt_of_le (by norm_num) h1
  have hM : 0 < Conversion.mass_in_1010msol k vo ro := by unfold Conversion.mass_in_1010msol; positivity
  have hmn : 0 < mvir * 100 / Conversion.mass_in_1010msol k vo ro := by positivity
  have hmc := m_pos hc
  have hodp : 0 < v.od vo ro := by
    unfold Virial.od Conversion.dens_in_meanmatterdens Conversion.dens_in_criticaldens
    split_ifs <;> positivity
  have g : Good o vo ro v := by
    refine ⟨?_, ?_, hvo, hro, hH, hOm, hod⟩
    · exact div_pos hmn hmc
    · simp only [o, initVir]; positivity
  have hr3 : (conc * o.a) ^ 3 = 3 * (mvir * 100 / Conversion.mass_in_1010msol k vo ro) / v.od vo ro / 4 / π := by
    have : conc * o.a = (3 * (mvir * 100 / Conversion.mass_in_1010msol k vo ro) / v.od vo ro / 4 / π) ^ (1 / 3 : ℝ) := by
      simp only [o, initVir]; field_simp
    rw [this, ← rpow_natCast, ← rpow_mul (by positivity)]
    norm_num
  have hmass : o.amp * NFW.mass o.a (conc * o.a) = mvir * 100 / Conversion.mass_in_1010msol k vo ro := by
    rw [C73aux.mass_eq _ _ g.a]
    simp only [o, initVir]
    exact div_mul_cancel₀ _ hmc.ne'
  have hcon : contrast o vo ro v (conc * o.a) = v.overdens := by
    rw [contrast_eq g, meanDens, hmass, hr3]
    field_simp
  have hnot : ¬ Rvir o vo ro v none := by
    rw [(C73_rvir_range g).1, not_not]
    have := g.a
    exact ⟨conc * o.a, by nlinarith, by nlinarith, hcon⟩
  have hrv : ∀ x, Rvir o vo ro v x ↔ x = some (conc * o.a) := by
    have hd : ∀ x, Rvir o vo ro v x → x = some (conc * o.a) := by
      intro x hx
      cases x with
      | none => exact absurd hx hnot
      | some r => rw [(C73_rvir g hx).2.2 _ (mul_pos hc g.a) hcon]
    intro x
    refine ⟨hd x, ?_⟩
    rintro rfl
    obtain ⟨y, hy⟩ := (C73_rvir_range g).2
    rwa [hd y hy] at hy
  have ha := g.a.ne'
  constructor
  · constructor
    · rintro ⟨r, hr, rfl⟩
      rw [(hrv r).1 hr]
      simp [ha]
    · rintro rfl
      exact ⟨_, (hrv _).2 rfl, by simp [ha]⟩
  · constructor
    · rintro ⟨r, hr, rfl⟩
      rw [(hrv r).1 hr]
      refine ⟨_, rfl, ?_⟩
      show o.amp * NFW.mass o.a (conc * o.a) * _ = _
      rw [hmass]; field_simp
    · rintro ⟨M, rfl, hM'⟩
      refine ⟨_, (hrv _).2 rfl, ?_⟩
      simp only [Option.map_some, Option.some.injEq]
      rw [hmass, eq_div_iff hM.ne', hM']; ring
example : Conc (initVir Conversion.fallback 220 8 ⟨70, 0.3, 200, true⟩ 12 1) 220 8 ⟨70, 0.3, 200, true⟩ (some 12) :=
  ((C73_initVir (by constructor <;> norm_num [Conversion.fallback]) (by norm_num) (by norm_num) (by norm_num) (by norm_num)
    (by norm_num) (by norm_num) (by norm_num) (by norm_num) _).1).2 rfl

/-- An NFW potential made from `rmax` and `vmax` reports them. -/
theorem C73_initMax {r w : ℝ} (hr : 0 < r) (hw : 0 ≤ w) : rmax (initMax r w) = r ∧ vmax (initMax r w) = w := by
  unfold rmax vmax initMax
  constructor
  · dsimp only; field_simp
  · dsimp only
    rw [show 0.21621659550187311005 * (w ^ 2 * (r / 2.1625815870646098349) / 0.21621659550187311005)
      / (r / 2.1625815870646098349) = w ^ 2 by field_simp, sqrt_sq hw]

example : rmax (initMax 2 1.5) = 2 := (C73_initMax (by norm_num) (by norm_num)).1

namespace C73aux
/-- `x m' − m`. -/
def h (x : ℝ) : ℝ := x ^ 2 / (1 + x) ^ 2 - m x
theorem h_deriv {x : ℝ} (hx : 0 ≤ x) : HasDerivAt h (x * (1 - x) / (1 + x) ^ 3) x := by
  have h1 : 0 < 1 + x := by linarith
  have hl : HasDerivAt (fun y : ℝ => 1 + y) 1 x := (hasDerivAt_id x).const_add 1
  have := (((hasDerivAt_id x).pow 2).div (hl.pow 2) (pow_ne_zero 2 h1.ne')).sub (m_deriv hx)
  refine this.congr_deriv ?_
  simp only [id, Pi.pow_apply]; push_cast; field_simp; ring
theorem h_pos {x : ℝ} (hx : 0 < x) (h1 : x ≤ 1) : 0 < h x := by
  have mono : StrictMonoOn h (Icc 0 1) := by
    refine strictMonoOn_of_deriv_pos (convex_Icc 0 1) (fun x hx => (h_deriv hx.1).continuousAt.continuousWithinAt) fun x hx => ?_
    rw [interior_Icc] at hx
    rw [(h_deriv hx.1.le).deriv]
    have h1 := hx.1
    have h2 : 0 < 1 - x := by linarith [hx.2]
    positivity
  have := mono (left_mem_Icc.2 zero_le_one) ⟨hx.le, h1⟩ hx
  simpa [h, m] using this
theorem h_anti : StrictAntiOn h (Ici 1) := by
  refine strictAntiOn_of_deriv_neg (convex_Ici 1)
    (fun x hx => (h_deriv (zero_le_one.trans hx)).continuousAt.continuousWithinAt) fun x hx => ?_
  rw [interior_Ici] at hx
  have hx' : 1 < x := hx
  rw [(h_deriv (by linarith)).deriv]
  have h0 : 0 < x := by linarith
  exact div_neg_of_neg_of_pos (mul_neg_of_pos_of_neg h0 (by linarith)) (by positivity)
theorem log_w (w : ℝ) (hw : 1 ≤ w) : log w = 2 * (1 / 2 * log ((1 + (w - 1) / (w + 1)) / (1 - (w - 1) / (w + 1)))) := by
  have : (1 + (w - 1) / (w + 1)) / (1 - (w - 1) / (w + 1)) = w := by
    have : w + 1 ≠ 0 := by positivity
    field_simp; ring
  rw [this]; ring
theorem log_m : log 3.16258157 < 1.1513886468 ∧ 1.1513886464 < log 3.16258157 := by
  have e : log 3.16258157 = log 3 + log (3.16258157 / 3) := by rw [← log_mul (by norm_num) (by norm_num)]; norm_num
  have k := log_w (3.16258157 / 3) (by norm_num)
  have k1 := sum_range_le_log_div (x := (3.16258157 / 3 - 1) / (3.16258157 / 3 + 1)) (by norm_num) (by norm_num) 4
  have k2 := log_div_le_sum_range_add (x := (3.16258157 / 3 - 1) / (3.16258157 / 3 + 1)) (by norm_num) (by norm_num) 4
  rw [e, k]
  simp only [Finset.sum_range_succ, Finset.sum_range_zero] at k1 k2
  generalize 1 / 2 * log _ = L at k1 k2 ⊢
  have := log_three_lt_d9
  have := log_three_gt_d9
  norm_num at k1 k2
  constructor <;> linarith
theorem log_p : log 3.1625816 < 1.1513886563 ∧ 1.1513886559 < log 3.1625816 := by
  have e : log 3.1625816 = log 3 + log (3.1625816 / 3) := by rw [← log_mul (by norm_num) (by norm_num)]; norm_num
  have k := log_w (3.1625816 / 3) (by norm_num)
  have k1 := sum_range_le_log_div (x := (3.1625816 / 3 - 1) / (3.1625816 / 3 + 1)) (by norm_num) (by norm_num) 4
  have k2 := log_div_le_sum_range_add (x := (3.1625816 / 3 - 1) / (3.1625816 / 3 + 1)) (by norm_num) (by norm_num) 4
  rw [e, k]
  simp only [Finset.sum_range_succ, Finset.sum_range_zero] at k1 k2
  generalize 1 / 2 * log _ = L at k1 k2 ⊢
  have := log_three_lt_d9
  have := log_three_gt_d9
  norm_num at k1 k2
  constructor <;> linarith
theorem peak : ∃ x, 2.16258157 < x ∧ x < 2.1625816 ∧ h x = 0 := by
  have a : 0 < h 2.16258157 := by
    have := log_m.1
    unfold h m
    norm_num at this ⊢
    linarith
  have b : h 2.1625816 < 0 := by
    have := log_p.2
    unfold h m
    norm_num at this ⊢
    linarith
  have c : ContinuousOn h (Icc 2.16258157 2.1625816) := fun x hx =>
    (h_deriv (le_trans (by norm_num) hx.1)).continuousAt.continuousWithinAt
  obtain ⟨x, hx, e⟩ := intermediate_value_Icc' (by norm_num) c (show (0:ℝ) ∈ _ from ⟨b.le, a.le⟩)
  refine ⟨x, lt_of_le_of_ne hx.1 ?_, lt_of_le_of_ne hx.2 ?_, e⟩
  · rintro rfl; linarith
  · rintro rfl; linarith
theorem ratio_deriv {x : ℝ} (hx : 0 < x) : HasDerivAt (fun y => m y / y) (h x / x ^ 2) x := by
  have := (m_deriv hx.le).div (hasDerivAt_id x) hx.ne'
  refine this.congr_deriv ?_
  simp only [id, h]; field_simp
/-- The ratio `m(y)/y` has its one maximum at the zero of `h`. -/
theorem ratio_max {x : ℝ} (h1 : 1 < x) (h0 : h x = 0) {y : ℝ} (hy : 0 < y) (hne : y ≠ x) : m y / y < m x / x := by
  rcases lt_or_gt_of_ne hne with hl | hl
  · have mono : StrictMonoOn (fun y => m y / y) (Ioc 0 x) := by
      refine strictMonoOn_of_deriv_pos (convex_Ioc 0 x)
        (fun y hy => (ratio_deriv hy.1).continuousAt.continuousWithinAt) fun z hz => ?_
      rw [interior_Ioc] at hz
      rw [(ratio_deriv hz.1).deriv]
      have z0 := hz.1
      have : 0 < h z := by
        rcases le_or_gt z 1 with k | k
        · exact h_pos z0 k
        · have := h_anti (mem_Ici.2 k.le) (mem_Ici.2 h1.le) hz.2
          linarith
      positivity
    exact mono ⟨hy, hl.le⟩ ⟨by linarith, le_rfl⟩ hl
  · have anti : StrictAntiOn (fun y => m y / y) (Ici x) := by
      refine strictAntiOn_of_deriv_neg (convex_Ici x)
        (fun y hy => (ratio_deriv (lt_of_lt_of_le (by linarith) hy)).continuousAt.continuousWithinAt) fun z hz => ?_
      rw [interior_Ici] at hz
      have hz' : x < z := hz
      have z0 : 0 < z := by linarith
      rw [(ratio_deriv z0).deriv]
      have := h_anti (mem_Ici.2 h1.le) (mem_Ici.2 (by linarith)) hz'
      exact div_neg_of_neg_of_pos (by linarith) (by positivity)
    exact anti (mem_Ici.2 le_rfl) (mem_Ici.2 hl.le) hl
theorem vcirc_eq {o : Obj} (ha : 0 < o.a) {y : ℝ} (hy : 0 < y) :
    PotQuant.vcirc ((NFW.pot o.a).scale o.amp) (y * o.a) 0 0 = √(o.amp / o.a * (m y / y)) := by
  have hya : 0 < y * o.a := mul_pos hy ha
  unfold PotQuant.vcirc
  congr 1
  simp only [Pot.scale, NFW.pot, Pot.axi, NFW.Rforce, zero_pow two_ne_zero, add_zero, sqrt_sq hya.le, m,
    mul_div_assoc, div_self ha.ne', mul_one]
  have : o.a + y * o.a ≠ 0 := by positivity
  have : 1 + y ≠ 0 := by positivity
  generalize log (1 + y) = L
  field_simp
  ring
end C73aux

/-- The rotation curve has exactly one maximum; `rmax` is within `2·10⁻⁸` scale radii of it and the square of `vmax` within a
relative `10⁻⁷` of the largest squared circular velocity. -/
theorem C73_rmax {o : Obj} (hA : 0 < o.amp) (ha : 0 < o.a) : ∃ x, |rmax o - x * o.a| ≤ 2e-8 * o.a ∧
    (∀ R, 0 < R → R ≠ x * o.a → PotQuant.vcirc ((NFW.pot o.a).scale o.amp) R 0 0
      < PotQuant.vcirc ((NFW.pot o.a).scale o.amp) (x * o.a) 0 0) ∧
    |vmax o ^ 2 - PotQuant.vcirc ((NFW.pot o.a).scale o.amp) (x * o.a) 0 0 ^ 2| ≤ 1e-7 * vmax o ^ 2 := by
  obtain ⟨x, x1, x2, hx⟩ := peak
  have x0 : 0 < x := lt_trans (by norm_num) x1
  have xg : 1 < x := lt_trans (by norm_num) x1
  have hAa : 0 < o.amp / o.a := div_pos hA ha
  have hmx := m_pos x0
  refine ⟨x, ?_, fun R hR hne => ?_, ?_⟩
  · unfold rmax
    rw [← sub_mul, abs_mul, abs_of_pos ha]
    refine mul_le_mul_of_nonneg_right (abs_le.2 ⟨?_, ?_⟩) ha.le <;> norm_num at * <;> linarith
  · have hy : 0 < R / o.a := div_pos hR ha
    have k := ratio_max xg hx hy (fun e => hne (by rw [← e]; field_simp))
    have := vcirc_eq (o := o) ha hy
    rw [div_mul_cancel₀ _ ha.ne'] at this
    rw [this, vcirc_eq ha x0]
    exact sqrt_lt_sqrt (mul_nonneg hAa.le (div_pos (m_pos hy) hy).le) (mul_lt_mul_of_pos_left k hAa)
  · rw [vcirc_eq ha x0, sq_sqrt (by positivity), vmax, sq_sqrt (by positivity)]
    have e : 0.21621659550187311005 * o.amp / o.a - o.amp / o.a * (m x / x)
        = (0.21621659550187311005 - m x / x) * (o.amp / o.a) := by ring
    have e2 : (1e-7:ℝ) * (0.21621659550187311005 * o.amp / o.a) = 1e-7 * 0.21621659550187311005 * (o.amp / o.a) := by ring
    rw [e, e2, abs_mul, abs_of_pos hAa]
    refine mul_le_mul_of_nonneg_right (abs_le.2 ⟨?_, ?_⟩) hAa.le
    · have k : m x ≤ m 2.1625816 := m_mono.monotoneOn (mem_Ici.2 x0.le) (mem_Ici.2 (by norm_num)) x2.le
      have k2 : m 2.1625816 < 0.467586032 := by
        have := log_p.1
        unfold m
        norm_num at this ⊢
        linarith
      have : m x / x ≤ 0.467586032 / 2.16258157 := div_le_div₀ (by norm_num) (by linarith) (by norm_num) x1.le
      norm_num at this ⊢
      linarith
    · have k : m 2.16258157 ≤ m x := m_mono.monotoneOn (mem_Ici.2 (by norm_num)) (mem_Ici.2 x0.le) x1.le
      have k2 : 0.467586024 < m 2.16258157 := by
        have := log_m.2
        unfold m
        norm_num at this ⊢
        linarith
      have : 0.467586024 / 2.1625816 ≤ m x / x := div_le_div₀ hmx.le (by linarith) x0 x2.le
      norm_num at this ⊢
      linarith
example : ∃ x, |rmax ⟨1, 2⟩ - x * 2| ≤ 2e-8 * 2 :=
  let ⟨x, h, _⟩ := C73_rmax (o := ⟨1, 2⟩) one_pos two_pos
  ⟨x, h⟩

end Verif
