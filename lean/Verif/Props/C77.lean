import Verif.Lemmas.SphMotion
import Verif.Lemmas.LibPhase
import Verif.Props.C14Actions
import Verif.Props.C50Example

set_option autoImplicit false

/-!
# C77: action-angle coordinates of spherical potentials

Along every orbit that is not (nearly) circular the actions and frequencies of `actionAngleSpherical` stay the same and the angles
advance at the frequencies.
-/

noncomputable section
namespace Verif
open Real Set MeasureTheory
open IsochroneAA (Point Lz L2 L mod2pi)
open SphericalAA (Radial rad rmean jrIntegrand trSmall trLarge iSmall iLarge RperiRap Out)
open RootSearch (rapRperiEq rapRperiStep Ends run Step)
open NFWVirial (Brentq)

/-- The orbit turns at `a` and `b`, and both can be found: the kinetic energy of the radial motion is positive between the turning
points only, the turning points are simple, the force is attractive, and the sizes are within the limits of the
searches. -/
structure C77Spec.Bound (P : Radial) (E l a b : ℝ) : Prop where
  a_pos : 2 / 10 ^ 9 ≤ a
  gap : a + 1 / 10 ^ 5 < b
  b_le : b ≤ 100
  pot : ∀ r, 0 < r → HasDerivAt P.phi (-P.rforce r) r
  cont : ContinuousOn P.rforce (Ioi 0)
  attract : P.rforce a ≤ 0
  za : E - P.phi a - l ^ 2 / (2 * a ^ 2) = 0
  zb : E - P.phi b - l ^ 2 / (2 * b ^ 2) = 0
  inside : ∀ r, a < r → r < b → 0 < E - P.phi r - l ^ 2 / (2 * r ^ 2)
  outside : ∀ r, 0 < r → r < a ∨ b < r → E - P.phi r - l ^ 2 / (2 * r ^ 2) < 0
  /-- Not within `10^-15` of the circular velocity at the turning points. -/
  notcirc_a : √(a * -P.rforce a) + 1 / 10 ^ 15 ≤ l / a
  notcirc_b : l / b + 1 / 10 ^ 15 ≤ √(b * -P.rforce b)

namespace C77aux
variable {P : Radial} {E l a b : ℝ}

theorem eq_form (phi : ℝ → ℝ) (E l r : ℝ) : rapRperiEq phi E l r = E - phi r - l ^ 2 / (2 * r ^ 2) := by
  unfold rapRperiEq
  rw [div_div]

theorem a0 (h : C77Spec.Bound P E l a b) : 0 < a := lt_of_lt_of_le (by norm_num) h.a_pos

theorem well (h : C77Spec.Bound P E l a b) : Well (rapRperiEq P.phi E l) (fun r => P.rforce r + l ^ 2 / r ^ 3) a b := by
  have ha := a0 h
  have hab : a < b := by linarith [h.gap, show (0 : ℝ) < 1 / 10 ^ 5 by norm_num]
  have hb : 0 < b := ha.trans hab
  refine ⟨hab, fun x hx => deriv_W P E l x (ha.trans_le hx.1) (h.pot x (ha.trans_le hx.1)), ?_, ?_, ?_, fun x hx => ?_, ?_, ?_⟩
  · refine (h.cont.mono fun x hx => ha.trans_le hx.1).add (continuousOn_const.div (by fun_prop) fun x hx => ?_)
    exact pow_ne_zero 3 (ha.trans_le hx.1).ne'
  · rw [eq_form, h.za]
  · rw [eq_form, h.zb]
  · rw [eq_form]; exact h.inside x hx.1 hx.2
  · have h1 := h.notcirc_a
    have hs : √(a * -P.rforce a) < l / a := by linarith [show (0 : ℝ) < 1 / 10 ^ 15 by norm_num]
    have h0 : 0 ≤ √(a * -P.rforce a) := sqrt_nonneg _
    have h2 : a * -P.rforce a < (l / a) ^ 2 := by
      rw [← sq_sqrt (show 0 ≤ a * -P.rforce a from mul_nonneg ha.le (by linarith [h.attract]))]
      exact pow_lt_pow_left₀ hs h0 two_ne_zero
    have e : l ^ 2 / a ^ 3 = (l / a) ^ 2 / a := by field_simp
    have : -P.rforce a < (l / a) ^ 2 / a := by rw [lt_div_iff₀ ha]; linarith
    show 0 < P.rforce a + l ^ 2 / a ^ 3
    rw [e]; linarith
  · have h1 := h.notcirc_b
    have hs : l / b < √(b * -P.rforce b) := by linarith [show (0 : ℝ) < 1 / 10 ^ 15 by norm_num]
    have hl : 0 ≤ l / b := by
      have : 0 ≤ l / a := le_trans (by positivity) h.notcirc_a
      have : 0 ≤ l := by
        rw [le_div_iff₀ ha] at this
        linarith
      positivity
    have hpos : 0 < b * -P.rforce b := by
      by_contra hn
      rw [sqrt_eq_zero_of_nonpos (not_lt.1 hn)] at hs
      linarith
    have h2 : (l / b) ^ 2 < b * -P.rforce b := by
      rw [← sq_sqrt hpos.le]
      exact pow_lt_pow_left₀ hs hl two_ne_zero
    have e : l ^ 2 / b ^ 3 = (l / b) ^ 2 / b := by field_simp
    have : (l / b) ^ 2 / b < -P.rforce b := by rw [div_lt_iff₀ hb]; linarith
    show P.rforce b + l ^ 2 / b ^ 3 < 0
    rw [e]; linarith

theorem l_nonneg (h : C77Spec.Bound P E l a b) : 0 < l := by
  have ha := a0 h
  have : 0 < l / a := lt_of_lt_of_le (by positivity) h.notcirc_a
  rwa [lt_div_iff₀ ha, zero_mul] at this

theorem sign (h : C77Spec.Bound P E l a b) {r : ℝ} (hr : 0 < r) :
    (rapRperiEq P.phi E l r ≤ 0 → r ≤ a ∨ b ≤ r) ∧ (rapRperiEq P.phi E l r = 0 → r = a ∨ r = b)
      ∧ (0 ≤ rapRperiEq P.phi E l r → r ∈ Icc a b) := by
  rw [eq_form]
  refine ⟨fun h0 => ?_, fun h0 => ?_, fun h0 => ?_⟩
  · by_contra hn
    push Not at hn
    linarith [h.inside r hn.1 hn.2]
  · by_contra hn
    push Not at hn
    rcases lt_or_gt_of_ne hn.1 with h1 | h1
    · linarith [h.outside r hr (Or.inl h1)]
    rcases lt_or_gt_of_ne hn.2 with h2 | h2
    · linarith [h.inside r h1 h2]
    · linarith [h.outside r hr (Or.inr h2)]
  · by_contra hn
    rw [mem_Icc, not_and_or, not_le, not_le] at hn
    linarith [h.outside r hr hn]

/-! ### The searches -/

theorem run_inv {α β : Type} (step : α → Step α β) (I : α → Prop) (Q : β → Prop) (hn : ∀ s s', I s → step s = .next s' → I s')
    (hd : ∀ s b, I s → step s = .done b → Q b) (n : ℕ) (s : α) (hs : I s) (b : β) (h : run step n s = some b) : Q b := by
  induction n generalizing s with
  | zero => simp [run] at h
  | succ n ih =>
    rw [run] at h
    split at h
    · exact ih _ (hn _ _ hs ‹_›) h
    · simp only [Option.some.injEq] at h
      exact h ▸ hd _ _ hs ‹_›

theorem search_in (h : C77Spec.Bound P E l a b) {r : ℝ} (hr : r ∈ Icc a b) {o : Option ℝ}
    (he : Ends (rapRperiStep (rapRperiEq P.phi E l) false 1) (r / 2) o) :
    ∃ s, o = some s ∧ 0 < s ∧ s ≤ r / 2 ∧ s ≤ a := by
  have ha := a0 h
  have h9 := h.a_pos
  obtain ⟨n, hn⟩ := he
  refine run_inv (rapRperiStep (rapRperiEq P.phi E l) false 1) (fun s => a / 2 ≤ s ∧ s ≤ r / 2) (fun o => ∃ s, o = some s ∧ 0 < s ∧ s ≤ r / 2 ∧ s ≤ a)
    (fun s s' hs hst => ?_) (fun s o hs hst => ?_) n _ ⟨by linarith [hr.1], le_rfl⟩ o hn
  · rw [C14aux.rperi_step, one_mul] at hst
    split_ifs at hst with h1
    simp only [Step.next.injEq] at hst
    have := (((sign h (r := s) (by linarith [hs.1])).2.2) h1.1.le).1
    rw [← hst]
    exact ⟨by linarith, by linarith [hs.2, hs.1]⟩
  · have hs9 : ¬ s < 1 / 10 ^ 9 := by
      push Not
      have : (2 : ℝ) / 10 ^ 9 = 2 * (1 / 10 ^ 9) := by ring
      linarith [hs.1]
    rw [C14aux.rperi_step, one_mul] at hst
    split_ifs at hst with h1
    simp only [Step.done.injEq] at hst
    refine ⟨s, hst.symm, by linarith [hs.1], hs.2, ?_⟩
    by_contra hsa
    push Not at hsa
    have hsb : s < b := by linarith [hs.2, hr.2]
    have hf := (well h).pos s ⟨hsa, hsb⟩
    refine h1 ⟨hf, lt_of_lt_of_le ?_ hsa.le⟩
    linarith [h9, show (1 : ℝ) / 10 ^ 9 < 2 / 10 ^ 9 by norm_num]

theorem search_out (h : C77Spec.Bound P E l a b) {r : ℝ} (hr : r ∈ Icc a b) {o : Option ℝ}
    (he : Ends (rapRperiStep (rapRperiEq P.phi E l) true 1) (2 * r) o) :
    ∃ s, o = some s ∧ b ≤ s := by
  have ha := a0 h
  have h9 := h.a_pos
  obtain ⟨n, hn⟩ := he
  refine run_inv (rapRperiStep (rapRperiEq P.phi E l) true 1) (fun s => 2 * a ≤ s) (fun o => ∃ s, o = some s ∧ b ≤ s)
    (fun s s' hs hst => ?_) (fun s o hs hst => ?_) n _ (by linarith [hr.1]) o hn
  · rw [C14aux.rap_step, one_mul] at hst
    split_ifs at hst with h1 h2
    simp only [Step.next.injEq] at hst
    rw [← hst]
    linarith
  · have hs0 : 0 < s := by linarith
    have hs9 : 1 / 10 ^ 9 < s := by linarith [h9, show (1 : ℝ) / 10 ^ 9 < 2 / 10 ^ 9 by norm_num]
    rw [C14aux.rap_step, one_mul] at hst
    split_ifs at hst with h1 h2 h3
    · have := (((sign h (r := s) hs0).2.2) h1.1.le).2
      linarith [h.b_le]
    · linarith
    · simp only [Step.done.injEq] at hst
      refine ⟨s, hst.symm, ?_⟩
      by_contra hsb
      push Not at hsb
      exact h1 ⟨(well h).pos s ⟨by linarith, hsb⟩, hs9⟩

/-- The turning points found are those of the orbit. -/
theorem turning (h : C77Spec.Bound P E l a b) {r v : ℝ} (hr : r ∈ Icc a b) (hv : v ^ 2 = 2 * rapRperiEq P.phi E l r)
    {o : Option (ℝ × ℝ)} (ho : RperiRap P r v (l / r) E l o) : o = some (a, b) := by
  have ha := a0 h
  have hW := well h
  have hab := hW.lt
  have hr0 : 0 < r := ha.trans_le hr.1
  unfold RperiRap at ho
  by_cases hv0 : v = 0
  · rw [hv0] at hv
    have hz : rapRperiEq P.phi E l r = 0 := by linarith
    rcases (sign h hr0).2.1 hz with e | e
    · -- at the pericentre
      have hvc : P.vcirc r + 1 / 10 ^ 15 ≤ l / r := by rw [e]; exact h.notcirc_a
      have hn : ¬ |l / r - P.vcirc r| < 1 / 10 ^ 15 := by
        rw [abs_of_nonneg (by linarith [show (0 : ℝ) < 1 / 10 ^ 15 by norm_num])]
        linarith
      have hgt : l / r > P.vcirc r := by linarith [show (0 : ℝ) < 1 / 10 ^ 15 by norm_num]
      dsimp only at ho
      rw [if_neg (fun hh => hn hh.2), if_pos ⟨hv0, hgt⟩] at ho
      obtain ⟨rend, hend, hh⟩ := ho
      obtain ⟨s, hs, hbs⟩ := search_out h hr hend
      rcases hh with ⟨h1, -⟩ | ⟨e', x, h1, hx, hout⟩
      · rw [hs] at h1; exact absurd h1 (by simp)
      rw [hs] at h1
      simp only [Option.some.injEq] at h1
      subst h1
      have hstart : 0 < rapRperiEq P.phi E l (r + 1 / 10 ^ 5) :=
        hW.pos _ ⟨by rw [e]; linarith [show (0 : ℝ) < 1 / 10 ^ 5 by norm_num], by rw [e]; exact h.gap⟩
      have hend0 : rapRperiEq P.phi E l s ≤ 0 := by
        rcases hbs.lt_or_eq with h2 | h2
        · rw [eq_form]; exact (h.outside s (by linarith) (Or.inr h2)).le
        · rw [← h2, hW.zb]
      cases x with
      | none =>
        have : 0 < rapRperiEq P.phi E l (r + 1 / 10 ^ 5) * rapRperiEq P.phi E l s := hx
        nlinarith
      | some x =>
        obtain ⟨-, hx1, hx2, hx0⟩ := hx
        have h5 : (0 : ℝ) < 1 / 10 ^ 5 := by norm_num
        rcases (sign h (r := x) (by linarith)).2.1 hx0 with e2 | e2
        · linarith
        · rw [hout, e2, e]; rfl
    · -- at the apocentre
      have hvc : l / r + 1 / 10 ^ 15 ≤ P.vcirc r := by rw [e]; exact h.notcirc_b
      have hn : ¬ |l / r - P.vcirc r| < 1 / 10 ^ 15 := by
        rw [abs_of_nonpos (by linarith [show (0 : ℝ) < 1 / 10 ^ 15 by norm_num])]
        linarith
      have hlt : l / r < P.vcirc r := by linarith [show (0 : ℝ) < 1 / 10 ^ 15 by norm_num]
      dsimp only at ho
      rw [if_neg (fun hh => hn hh.2), if_neg (fun hh => absurd hh.2 (by simpa using hlt.le)), if_pos ⟨hv0, hlt⟩] at ho
      obtain ⟨rstart, hstart, hh⟩ := ho
      obtain ⟨s, hs, hs0, hs2, hsa⟩ := search_in h hr hstart
      simp only [Option.some.injEq] at hs
      subst hs
      rw [if_neg hs0.ne'] at hh
      obtain ⟨x, hx, hout⟩ := hh
      have h56 : (1 : ℝ) / 10 ^ 6 < 1 / 10 ^ 5 := by norm_num
      have hb' : 0 < rapRperiEq P.phi E l (r - 1 / 10 ^ 6) :=
        hW.pos _ ⟨by rw [e]; linarith [h.gap], by rw [e]; linarith [show (0 : ℝ) < 1 / 10 ^ 6 by norm_num]⟩
      have hs0' : rapRperiEq P.phi E l rstart ≤ 0 := by
        rcases hsa.lt_or_eq with h2 | h2
        · rw [eq_form]; exact (h.outside rstart hs0 (Or.inl h2)).le
        · rw [h2, hW.za]
      cases x with
      | none =>
        have : 0 < rapRperiEq P.phi E l rstart * rapRperiEq P.phi E l (r - 1 / 10 ^ 6) := hx
        nlinarith
      | some x =>
        obtain ⟨-, hx1, hx2, hx0⟩ := hx
        have h6 : (0 : ℝ) < 1 / 10 ^ 6 := by norm_num
        rcases (sign h (r := x) (by linarith)).2.1 hx0 with e2 | e2
        · rw [hout, e2, e]; rfl
        · linarith
  · dsimp only at ho
    rw [if_neg (fun hh => hv0 hh.1), if_neg (fun hh => hv0 hh.1), if_neg (fun hh => hv0 hh.1)] at ho
    obtain ⟨rstart, rend, x, y, hst, hx, hen, hy, hout⟩ := ho
    obtain ⟨s, hs, hs0, hs2, hsa⟩ := search_in h hr hst
    simp only [Option.some.injEq] at hs
    subst hs
    obtain ⟨e', he', hbe⟩ := search_out h hr hen
    subst he'
    rw [if_neg hs0.ne'] at hx
    have hf : 0 < rapRperiEq P.phi E l r := by
      have : 0 < v ^ 2 := by positivity
      linarith
    have hri : r ∈ Ioo a b := by
      refine ⟨lt_of_le_of_ne hr.1 fun e => ?_, lt_of_le_of_ne hr.2 fun e => ?_⟩
      · rw [← e, hW.za] at hf; exact lt_irrefl _ hf
      · rw [e, hW.zb] at hf; exact lt_irrefl _ hf
    have hs0' : rapRperiEq P.phi E l rstart ≤ 0 := by
      rcases hsa.lt_or_eq with h2 | h2
      · rw [eq_form]; exact (h.outside rstart hs0 (Or.inl h2)).le
      · rw [h2, hW.za]
    have he0' : rapRperiEq P.phi E l e' ≤ 0 := by
      rcases hbe.lt_or_eq with h2 | h2
      · rw [eq_form]; exact (h.outside e' (by linarith [hri.2]) (Or.inr h2)).le
      · rw [← h2, hW.zb]
    have hxa : x = some a := by
      cases x with
      | none =>
        have : 0 < rapRperiEq P.phi E l rstart * rapRperiEq P.phi E l r := hx
        nlinarith
      | some x =>
        obtain ⟨-, hx1, hx2, hx0⟩ := hx
        rcases (sign h (r := x) (by linarith)).2.1 hx0 with e2 | e2
        · rw [e2]
        · linarith [hri.2]
    have hyb : y = some b := by
      dsimp only at hy
      cases y with
      | none =>
        have : 0 < rapRperiEq P.phi E l r * rapRperiEq P.phi E l e' := hy
        nlinarith
      | some y =>
        obtain ⟨-, hx1, hx2, hx0⟩ := hy
        rcases (sign h (r := y) (by linarith)).2.1 hx0 with e2 | e2
        · linarith [hri.1]
        · rw [e2]
    rw [hout, hxa, hyb]
    rfl

/-- The searches end and the turning points are found. -/
theorem turning_exists (h : C77Spec.Bound P E l a b) {r v : ℝ} (hr : r ∈ Icc a b) (hv : v ^ 2 = 2 * rapRperiEq P.phi E l r) :
    RperiRap P r v (l / r) E l (some (a, b)) := by
  have ha := a0 h
  have hr0 : 0 < r := ha.trans_le hr.1
  have hin : ∃ o, Ends (rapRperiStep (rapRperiEq P.phi E l) false 1) (r / 2) o := by
    obtain ⟨n, o, ho⟩ := C14_rap_rperi_ends (rapRperiEq P.phi E l) r hr0 false 1
    exact ⟨o, n, by simpa [RootSearch.rapRperiFindStart] using ho n le_rfl⟩
  have hou : ∃ o, Ends (rapRperiStep (rapRperiEq P.phi E l) true 1) (2 * r) o := by
    obtain ⟨n, o, ho⟩ := C14_rap_rperi_ends (rapRperiEq P.phi E l) r hr0 true 1
    exact ⟨o, n, by simpa [RootSearch.rapRperiFindStart] using ho n le_rfl⟩
  have hbq : ∀ (f : ℝ → ℝ) lo hi, (∃ y, lo ≤ y ∧ y ≤ hi ∧ f y = 0) → ∃ x, Brentq f lo hi x := by
    rintro f lo hi ⟨y, h1, h2, h3⟩
    by_cases hc : f lo * f hi ≤ 0
    · exact ⟨some y, hc, h1, h2, h3⟩
    · exact ⟨none, not_le.1 hc⟩
  obtain ⟨o1, h1⟩ := hin
  obtain ⟨o2, h2⟩ := hou
  obtain ⟨s, rfl, hs0, hs2, hsa⟩ := search_in h hr h1
  obtain ⟨e, rfl, hbe⟩ := search_out h hr h2
  suffices ∃ o, RperiRap P r v (l / r) E l o by
    obtain ⟨o, ho⟩ := this
    have := turning h hr hv ho
    rwa [this] at ho
  have za := (well h).za
  have zb := (well h).zb
  have hab := (well h).lt
  unfold RperiRap
  dsimp only
  by_cases hv0 : v = 0
  · rw [hv0] at hv
    have hz : rapRperiEq P.phi E l r = 0 := by linarith
    by_cases c1 : v = 0 ∧ |l / r - P.vcirc r| < 1 / 10 ^ 15
    · exact ⟨some (r, r), by rw [if_pos c1]⟩
    by_cases c2 : v = 0 ∧ l / r > P.vcirc r
    · have hra : r ≤ a := by
        rcases (sign h hr0).2.1 hz with e1 | e1
        · exact e1.le
        · have := h.notcirc_b
          rw [← e1] at this
          have : l / r < P.vcirc r := by
            unfold Radial.vcirc
            linarith [show (0 : ℝ) < 1 / 10 ^ 15 by norm_num]
          exact absurd c2.2 (by simpa using this.le)
      obtain ⟨x, hx⟩ := hbq (rapRperiEq P.phi E l) (r + 1 / 10 ^ 5) e ⟨b, by linarith [h.gap], hbe, zb⟩
      refine ⟨x.map fun rap => (r, rap), ?_⟩
      rw [if_neg c1, if_pos c2]
      exact ⟨some e, h2, Or.inr ⟨e, x, rfl, hx, rfl⟩⟩
    by_cases c3 : v = 0 ∧ l / r < P.vcirc r
    · have hrb : b ≤ r := by
        rcases (sign h hr0).2.1 hz with e1 | e1
        · have := h.notcirc_a
          rw [← e1] at this
          have : P.vcirc r < l / r := by
            unfold Radial.vcirc
            linarith [show (0 : ℝ) < 1 / 10 ^ 15 by norm_num]
          exact absurd c3.2 (by simpa using this.le)
        · exact e1.ge
      obtain ⟨x, hx⟩ := hbq (rapRperiEq P.phi E l) s (r - 1 / 10 ^ 6)
        ⟨a, hsa, by linarith [h.gap, show (1 : ℝ) / 10 ^ 6 < 1 / 10 ^ 5 by norm_num], za⟩
      refine ⟨x.map fun rperi => (rperi, r), ?_⟩
      rw [if_neg c1, if_neg c2, if_pos c3]
      exact ⟨s, h1, by rw [if_neg hs0.ne']; exact ⟨x, hx, rfl⟩⟩
    · exfalso
      have hne : l / r ≠ P.vcirc r := fun hh => c1 ⟨hv0, by rw [hh, sub_self, abs_zero]; norm_num⟩
      rcases lt_or_gt_of_ne hne with hh | hh
      · exact c3 ⟨hv0, hh⟩
      · exact c2 ⟨hv0, hh⟩
  · obtain ⟨x, hx⟩ := hbq (rapRperiEq P.phi E l) s r ⟨a, hsa, hr.1, za⟩
    obtain ⟨y, hy⟩ := hbq (rapRperiEq P.phi E l) r e ⟨b, hr.2, hbe, zb⟩
    refine ⟨x.bind fun rperi => y.map fun rap => (rperi, rap), ?_⟩
    rw [if_neg (fun hh => hv0 hh.1), if_neg (fun hh => hv0 hh.1), if_neg (fun hh => hv0 hh.1)]
    exact ⟨s, some e, x, y, h1, by rw [if_neg hs0.ne']; exact hx, h2, hy, rfl⟩

/-! ### The integrals -/

/-- Time since the pericentre. -/
def tau (P : Radial) (E l a : ℝ) : ℝ → ℝ := Well.T (rapRperiEq P.phi E l) (fun _ => 1) a
/-- Angle in the orbital plane since the pericentre, divided by the angular momentum. -/
def eta (P : Radial) (E l a : ℝ) : ℝ → ℝ := Well.T (rapRperiEq P.phi E l) (fun r => 1 / r ^ 2) a

theorem jr_form (P : Radial) (E l r : ℝ) : jrIntegrand P E l r = √(2 * rapRperiEq P.phi E l r) := by
  unfold jrIntegrand rapRperiEq
  congr 1
  ring

theorem k_cont (h : C77Spec.Bound P E l a b) : ContinuousOn (fun r : ℝ => 1 / r ^ 2) (Icc a b) :=
  continuousOn_const.div (by fun_prop) fun _ hx => pow_ne_zero 2 ((a0 h).trans_le hx.1).ne'

theorem tr_small (h : C77Spec.Bound P E l a b) {x : ℝ} (hx : x ∈ Icc a b) :
    ∫ t in (0 : ℝ)..√(x - a), trSmall P E l a t = tau P E l a x := by
  rw [tau, ← (well h).small _ hx]
  refine intervalIntegral.integral_congr fun t _ => ?_
  simp only [trSmall, jr_form, Well.w]
  ring

theorem tr_large (h : C77Spec.Bound P E l a b) {x : ℝ} (hx : x ∈ Icc a b) :
    ∫ t in (0 : ℝ)..√(b - x), trLarge P E l b t = tau P E l a b - tau P E l a x := by
  rw [tau, ← (well h).large _ continuousOn_const hx]
  refine intervalIntegral.integral_congr fun t _ => ?_
  simp only [trLarge, jr_form, Well.w]
  ring

theorem i_small (h : C77Spec.Bound P E l a b) {x : ℝ} (hx : x ∈ Icc a b) :
    ∫ t in (0 : ℝ)..√(x - a), iSmall P E l a t = eta P E l a x := by
  rw [eta, ← (well h).small _ hx]
  refine intervalIntegral.integral_congr fun t _ => ?_
  simp only [iSmall, jr_form, Well.w]
  ring

theorem i_large (h : C77Spec.Bound P E l a b) {x : ℝ} (hx : x ∈ Icc a b) :
    ∫ t in (0 : ℝ)..√(b - x), iLarge P E l b t = eta P E l a b - eta P E l a x := by
  rw [eta, ← (well h).large _ (k_cont h) hx]
  refine intervalIntegral.integral_congr fun t _ => ?_
  simp only [iLarge, jr_form, Well.w]
  ring

theorem rmean_mem (h : C77Spec.Bound P E l a b) : rmean a b ∈ Ioo a b := by
  have ha := a0 h
  have hab := (well h).lt
  have hb : 0 < b := ha.trans hab
  have hl := log_lt_log ha hab
  unfold rmean
  rw [if_pos ha]
  constructor
  · rw [← log_lt_iff_lt_exp ha]; linarith
  · rw [← lt_log_iff_exp_lt hb]; linarith

theorem tau_zero : tau P E l a a = 0 := by simp [tau, Well.T]
theorem eta_zero : eta P E l a a = 0 := by simp [eta, Well.T]
theorem tau_pos (h : C77Spec.Bound P E l a b) : 0 < tau P E l a b := (well h).half_pos

theorem or_eq (h : C77Spec.Bound P E l a b) : SphericalAA.calcOr P (rmean a b) a b E l = π / tau P E l a b := by
  have hm := rmean_mem h
  have hm' : rmean a b ∈ Icc a b := ⟨hm.1.le, hm.2.le⟩
  have := tau_pos h
  simp only [SphericalAA.calcOr]
  rw [if_pos (show rmean a b > a from hm.1), if_pos hm.2, tr_small h hm', tr_large h hm']
  rw [show tau P E l a (rmean a b) + (tau P E l a b - tau P E l a (rmean a b)) = tau P E l a b by ring]
  field_simp

theorem op_eq (h : C77Spec.Bound P E l a b) (Or : ℝ) :
    SphericalAA.calcOp P Or (rmean a b) a b E l = l * eta P E l a b * Or / π := by
  have hm := rmean_mem h
  have hm' : rmean a b ∈ Icc a b := ⟨hm.1.le, hm.2.le⟩
  simp only [SphericalAA.calcOp]
  rw [if_pos (show rmean a b > a from hm.1), if_pos hm.2, i_small h hm', i_large h hm']
  ring

theorem angler_eq (h : C77Spec.Bound P E l a b) {r v : ℝ} (hr : r ∈ Icc a b) :
    SphericalAA.calcAngler P (π / tau P E l a b) r (rmean a b) a b E l v
      = if v < 0 then 2 * π - π / tau P E l a b * tau P E l a r else π / tau P E l a b * tau P E l a r := by
  have ht := (tau_pos h).ne'
  have e1 : (if r > a then π / tau P E l a b * ∫ t in (0 : ℝ)..√(r - a), trSmall P E l a t else 0)
      = π / tau P E l a b * tau P E l a r := by
    split_ifs with hc
    · rw [tr_small h hr]
    · rw [le_antisymm (not_lt.1 hc) hr.1, tau_zero, mul_zero]
  have e2 : (if r < b then π / tau P E l a b * ∫ t in (0 : ℝ)..√(b - r), trLarge P E l b t else 0)
      = π - π / tau P E l a b * tau P E l a r := by
    split_ifs with hc
    · rw [tr_large h hr, mul_sub, div_mul_cancel₀ _ ht]
    · rw [le_antisymm hr.2 (not_lt.1 hc), div_mul_cancel₀ _ ht, sub_self]
  simp only [SphericalAA.calcAngler]
  rw [e1, e2]
  split_ifs <;> ring

theorem anglez_eq (h : C77Spec.Bound P E l a b) (q : Point) (hr : rad q ∈ Icc a b) (Op : ℝ)
    (hOp : Op = l * eta P E l a b * (π / tau P E l a b) / π) :
    SphericalAA.calcAnglez P (π / tau P E l a b) Op
        (if SphericalAA.vr q < 0 then 2 * π - π / tau P E l a b * tau P E l a (rad q) else π / tau P E l a b * tau P E l a (rad q))
        (rmean a b) a b E l q
      = SphericalAA.psi q - Well.sgn (SphericalAA.vr q) * (l * eta P E l a (rad q) - Op * tau P E l a (rad q)) := by
  have ht := (tau_pos h).ne'
  have hpi := pi_pos.ne'
  have e1 : (if √(rad q - a) = 0 then 0 else l * ∫ t in (0 : ℝ)..√(rad q - a), iSmall P E l a t) = l * eta P E l a (rad q) := by
    split_ifs with hc
    · have : rad q - a ≤ 0 := sqrt_eq_zero'.1 hc
      rw [le_antisymm (by linarith) hr.1, eta_zero, mul_zero]
    · rw [i_small h hr]
  have e2 : (if √(b - rad q) = 0 then 0 else l * ∫ t in (0 : ℝ)..√(b - rad q), iLarge P E l b t)
      = l * (eta P E l a b - eta P E l a (rad q)) := by
    split_ifs with hc
    · have : b - rad q ≤ 0 := sqrt_eq_zero'.1 hc
      rw [le_antisymm hr.2 (by linarith), sub_self, mul_zero]
    · rw [i_large h hr]
  have hk : Op / (π / tau P E l a b) = l * eta P E l a b / π := by
    rw [hOp]
    field_simp
  have hOp' : Op * tau P E l a b = l * eta P E l a b := by
    rw [hOp]
    field_simp
  simp only [SphericalAA.calcAnglez, SphericalAA.calcWz]
  rw [e1, e2, hk]
  have hk2 : l * eta P E l a b / π * (π / tau P E l a b) = Op := by rw [hOp]; field_simp
  have hk3 : l * eta P E l a b / π * 2 * π = 2 * (l * eta P E l a b) := by field_simp
  have hk4 : l * eta P E l a b / π * (2 * π - π / tau P E l a b * tau P E l a (rad q))
      = 2 * (l * eta P E l a b) - Op * tau P E l a (rad q) := by
    rw [mul_sub, ← mul_assoc _ _ (tau P E l a (rad q)), hk2]
    field_simp
  have hk5 : l * eta P E l a b / π * (π / tau P E l a b * tau P E l a (rad q)) = Op * tau P E l a (rad q) := by
    rw [← mul_assoc, hk2]
  unfold Well.sgn
  split_ifs
  · rw [hk3, hk4]; ring
  · rw [hk5]; ring
  · rw [hk3, hk4]; ring
  · rw [hk3, hk5]; ring

/-! ### The angles of the orbital plane -/

/-- Not in the plane with negative angular momentum. -/
theorem cos_ne (q : Point) (hL : 0 < L q) (h : C50aux.N q ≠ 0 ∨ 0 < Lz q) : Lz q / L q ≠ -1 := fun e => by
  rw [div_eq_iff hL.ne'] at e
  rcases h with h | h
  · refine h ?_
    unfold C50aux.N
    rw [e]
    simp
  · linarith

theorem inc_eq (q : Point) (hL : 0 < L q) (h : C50aux.N q ≠ 0 ∨ 0 < Lz q) : SphericalAA.inc q = arccos (Lz q / L q) := by
  unfold SphericalAA.inc SphericalAA.arccosF
  rw [if_neg (cos_ne q hL h)]

theorem sin_inc (q : Point) (hL : 0 < L q) (h : C50aux.N q ≠ 0 ∨ 0 < Lz q) : sin (SphericalAA.inc q) = IsochroneAA.sini q := by
  rw [inc_eq q hL h]
  unfold IsochroneAA.sini
  rw [sin_arccos, eq_div_iff hL.ne', ← sqrt_sq hL.le, ← sqrt_mul' _ (by positivity), sqrt_sq hL.le]
  congr 1
  field_simp

theorem tan_inc (q : Point) (hL : 0 < L q) (hi : C50aux.N q ≠ 0 ∨ 0 < Lz q) : tan (SphericalAA.inc q) = IsochroneAA.tani q := by
  have h := sin_inc q hL hi
  rw [inc_eq q hL hi] at h ⊢
  rw [tan_arccos]
  rw [sin_arccos] at h
  rw [h]
  unfold IsochroneAA.sini IsochroneAA.tani
  rcases eq_or_ne (Lz q) 0 with e | e
  · simp [e]
  · field_simp

/-- In the plane with negative angular momentum the node and the angle from it are nought. -/
theorem retro (q : Point) (hz : q.z = 0) (hvz : q.vz = 0) (hR : 0 < q.R) (hT : q.vT < 0) :
    SphericalAA.node q = 0 ∧ SphericalAA.psi q = 0 := by
  have hL : L q = -(q.R * q.vT) := by
    unfold L L2 Lz
    simp only [hz, hvz]
    rw [show -0 * q.vT * (-0 * q.vT) + (0 * q.vR - q.R * 0) * (0 * q.vR - q.R * 0) + q.R * q.vT * (q.R * q.vT)
      = (-(q.R * q.vT)) ^ 2 by ring, sqrt_sq (by nlinarith [mul_neg_of_pos_of_neg hR hT])]
  have hi : SphericalAA.inc q = SphericalAA.piF := by
    unfold SphericalAA.inc SphericalAA.arccosF
    rw [if_pos]
    rw [hL]
    unfold Lz
    have := hT.ne
    field_simp
  have h1 : SphericalAA.piF < π := by
    have := pi_gt_d20
    unfold SphericalAA.piF
    norm_num at this ⊢
    linarith
  have h2 : π / 2 < SphericalAA.piF := by
    have := pi_lt_d20
    unfold SphericalAA.piF
    norm_num at this ⊢
    linarith
  have hs : sin SphericalAA.piF ≠ 0 := (sin_pos_of_pos_of_lt_pi (by linarith [pi_pos]) h1).ne'
  have hc : cos SphericalAA.piF ≠ 0 := (cos_neg_of_pi_div_two_lt_of_lt h2 (by linarith [pi_pos])).ne
  have ht : tan SphericalAA.piF ≠ 0 := by rw [tan_eq_sin_div_cos]; exact div_ne_zero hs hc
  have hv : ¬ SphericalAA.vtheta q > 0 := by simp [SphericalAA.vtheta, hz, hvz]
  constructor
  · simp only [SphericalAA.node, hi, hz]
    rw [if_neg hv]
    simp [ht]
    norm_num
  · simp only [SphericalAA.psi, hi, hz]
    rw [if_pos hs, if_neg hv]
    norm_num [mod2pi]

theorem vtheta_iff (q : Point) : SphericalAA.vtheta q > 0 ↔ IsochroneAA.vzindx q := by
  unfold SphericalAA.vtheta IsochroneAA.vzindx IsochroneAA.sintheta IsochroneAA.costheta rad
  rw [show (q.z * q.vR - q.R * q.vz) / √(q.R ^ 2 + q.z ^ 2)
    = -q.vz * (q.R / √(q.R ^ 2 + q.z ^ 2)) + q.vR * (q.z / √(q.R ^ 2 + q.z ^ 2)) by ring]

theorem psi_eq (q : Point) (hL : 0 < L q) (hi : C50aux.N q ≠ 0 ∨ 0 < Lz q) : SphericalAA.psi q = mod2pi (IsochroneAA.psi q) := by
  simp only [SphericalAA.psi, IsochroneAA.psi, sin_inc q hL hi, IsochroneAA.clip, IsochroneAA.costheta, rad]
  by_cases hs : IsochroneAA.sini q = 0
  · rw [if_neg (by simpa using hs), if_pos hs]
  · rw [if_pos hs, if_neg hs]
    by_cases hv : IsochroneAA.vzindx q
    · rw [if_pos ((vtheta_iff q).2 hv), if_pos hv]
      congr!
    · rw [if_neg (fun h => hv ((vtheta_iff q).1 h)), if_neg hv]
      congr!

theorem node_eq (q : Point) (hR : 0 < q.R) (hLz : Lz q ≠ 0) (hi : C50aux.N q ≠ 0 ∨ 0 < Lz q) : SphericalAA.node q = IsochroneAA.u q := by
  have hL : 0 < L q := lt_of_lt_of_le (abs_pos.2 hLz) (C50aux.Lz_le q)
  simp only [SphericalAA.node, IsochroneAA.u, tan_inc q hL hi]
  have hs : IsochroneAA.sini q = C50aux.N q / L q := rfl
  have ht : IsochroneAA.tani q = C50aux.N q / Lz q := rfl
  rcases (show 0 ≤ C50aux.N q from sqrt_nonneg _).lt_or_eq with hN | hN
  · have hs0 : IsochroneAA.sini q ≠ 0 := by rw [hs]; positivity
    have ht0 : IsochroneAA.tani q ≠ 0 := by rw [ht]; exact div_ne_zero hN.ne' hLz
    have hsin : q.z / q.R / IsochroneAA.tani q = q.z * q.vT / C50aux.N q := by
      rw [ht]
      unfold Lz
      field_simp
    have hN2 := C50aux.N_sq q
    have hle : (q.z * q.vT / C50aux.N q) ^ 2 ≤ 1 := by
      rw [div_pow, div_le_one (by positivity), hN2]
      nlinarith [sq_nonneg (q.R * q.vz - q.z * q.vR)]
    have h1 : q.z * q.vT / C50aux.N q ≤ 1 := by nlinarith
    have h2 : -1 ≤ q.z * q.vT / C50aux.N q := by nlinarith
    have hc : ¬ (q.z * q.vT / C50aux.N q > 1 ∧ q.z * q.vT / C50aux.N q < 1 + 1 / 10 ^ 7) := fun h => absurd h.1 (not_lt.2 h1)
    rw [hsin, if_neg hs0]
    simp only [if_neg hc, if_neg (not_lt.2 h2)]
    rw [if_neg (by push Not; exact ⟨ht0, h1⟩), C50aux.clip_id h2 h1]
    by_cases hv : IsochroneAA.vzindx q
    · rw [if_pos ((vtheta_iff q).2 hv), if_pos hv]
    · rw [if_neg (fun h => hv ((vtheta_iff q).1 h)), if_neg hv]
  · have hs0 : IsochroneAA.sini q = 0 := by rw [hs, ← hN, zero_div]
    have ht0 : IsochroneAA.tani q = 0 := by rw [ht, ← hN, zero_div]
    rw [if_pos (Or.inl ht0), if_pos hs0]

end C77aux

/-- The energy. -/
def C77Spec.energy (P : Radial) (q : Point) : ℝ := (q.vR ^ 2 + q.vT ^ 2 + q.vz ^ 2) / 2 + P.phi (√(q.R ^ 2 + q.z ^ 2))

/-- A motion in the potential whose orbit turns at `a` and `b`. -/
structure C77Spec.Orbit (P : Radial) (a b : ℝ) (p : ℝ → Point) : Prop where
  motion : C77Spec.Motion P.rforce p
  bound : C77Spec.Bound P (C77Spec.energy P (p 0)) (√(C50Spec.angmom2 (p 0))) a b

namespace C77aux
variable {P : Radial} {a b : ℝ} {p : ℝ → Point}

theorem E_form (P : Radial) (q : Point) : SphericalAA.E P q = C77Spec.energy P q := by
  unfold SphericalAA.E C77Spec.energy rad
  ring

theorem bound' (o : C77Spec.Orbit P a b p) (t : ℝ) : C77Spec.Bound P (SphericalAA.E P (p t)) (L (p t)) a b := by
  have h := o.bound
  rw [← E_form, ← C50aux.L2_eq] at h
  rw [E_const P o.motion (fun t => h.pot _ (rad_pos o.motion t)) t 0, l_const o.motion t 0]
  exact h

theorem E_at (o : C77Spec.Orbit P a b p) (t : ℝ) : SphericalAA.E P (p t) = SphericalAA.E P (p 0) :=
  E_const P o.motion (fun t => o.bound.pot _ (rad_pos o.motion t)) t 0

theorem vr_sq (P : Radial) (q : Point) (hR : 0 < q.R) :
    SphericalAA.vr q ^ 2 = 2 * rapRperiEq P.phi (SphericalAA.E P q) (L q) (rad q) := by
  have h := speed q hR
  have hr : 0 < rad q := sqrt_pos.2 (by positivity)
  unfold rapRperiEq SphericalAA.E
  have e : L q ^ 2 / 2 / rad q ^ 2 = L q ^ 2 / rad q ^ 2 / 2 := by ring
  rw [e]
  linarith

theorem rad_mem (o : C77Spec.Orbit P a b p) (t : ℝ) : rad (p t) ∈ Icc a b := by
  have hr := rad_pos o.motion t
  refine (sign (bound' o t) hr).2.2 ?_
  have := vr_sq P (p t) (o.motion.pos t)
  nlinarith [sq_nonneg (SphericalAA.vr (p t))]

theorem moves (o : C77Spec.Orbit P a b p) :
    Well.Moves (rapRperiEq P.phi (SphericalAA.E P (p 0)) (L (p 0))) (fun r => P.rforce r + L (p 0) ^ 2 / r ^ 3) a b
      (fun t => rad (p t)) fun t => SphericalAA.vr (p t) := by
  refine ⟨rad_mem o, drad o.motion, fun t => ?_, fun t => ?_⟩
  · have := dvr o.motion t
    rwa [l_const o.motion t 0] at this
  · have := vr_sq P (p t) (o.motion.pos t)
    rwa [E_at o t, l_const o.motion t 0] at this

/-- The outcome at any time. -/
theorem outcome (o : C77Spec.Orbit P a b p) (t : ℝ) (rr : Option (ℝ × ℝ)) :
    RperiRap P (rad (p t)) (SphericalAA.vr (p t)) (SphericalAA.vt (p t)) (SphericalAA.E P (p t)) (L (p t)) rr ↔ rr = some (a, b) :=
  ⟨fun h => turning (bound' o t) (rad_mem o t) (vr_sq P (p t) (o.motion.pos t)) h,
    fun h => h ▸ turning_exists (bound' o t) (rad_mem o t) (vr_sq P (p t) (o.motion.pos t))⟩

theorem same_sgn (v x : ℝ) : C50Spec.Same (if v < 0 then 2 * π - x else x) (Well.sgn v * x) := by
  unfold Well.sgn
  split_ifs
  · exact ⟨1, by push_cast; ring⟩
  · exact ⟨0, by push_cast; ring⟩

theorem phase (o : C77Spec.Orbit P a b p) (t : ℝ) :
    let E := SphericalAA.E P (p 0)
    let l := L (p 0)
    let w := π / tau P E l a b
    C50Spec.Same (Well.sgn (SphericalAA.vr (p t)) * (w * tau P E l a (rad (p t))))
      (Well.sgn (SphericalAA.vr (p 0)) * (w * tau P E l a (rad (p 0))) + w * t) := by
  intro E l w
  have h : C77Spec.Bound P E l a b := bound' o 0
  have hW := well h
  have m := moves o
  have ht := (tau_pos h).ne'
  have hc : ContinuousOn (tau P E l a) (Icc a b) := hW.T_cont continuousOn_const
  have hd : ∀ y ∈ Ioo a b, HasDerivAt (tau P E l a) (1 * Well.w (rapRperiEq P.phi E l) y) y := fun y hy =>
    hW.T_deriv continuousOn_const hy
  have wb : w * tau P E l a b = π := div_mul_cancel₀ _ ht
  have wa : w * tau P E l a a = 0 := by rw [tau_zero, mul_zero]
  have hX := Well.Moves.even hW m (d := fun y => cos (w * tau P E l a y)) (g := fun y => -(w * sin (w * tau P E l a y)))
    (continuous_cos.comp_continuousOn (continuousOn_const.mul hc))
    ((continuousOn_const.mul (continuous_sin.comp_continuousOn (continuousOn_const.mul hc))).neg)
    (by rw [wa, sin_zero]; ring) (by rw [wb, sin_pi]; ring)
    (fun y hy => (hd_cos ((hd y hy).const_mul w)).congr_deriv (by ring))
  have hY := Well.Moves.odd hW m (d := fun y => sin (w * tau P E l a y)) (g := fun y => w * cos (w * tau P E l a y))
    (continuous_sin.comp_continuousOn (continuousOn_const.mul hc))
    (continuousOn_const.mul (continuous_cos.comp_continuousOn (continuousOn_const.mul hc)))
    (by rw [wa, sin_zero]) (by rw [wb, sin_pi])
    (fun y hy => (hd_sin ((hd y hy).const_mul w)).congr_deriv (by ring))
  have hcs : ∀ v x : ℝ, cos (Well.sgn v * x) = cos x := fun v x => by
    unfold Well.sgn; split_ifs <;> simp
  have hsn : ∀ v x : ℝ, sin (Well.sgn v * x) = Well.sgn v * sin x := fun v x => by
    unfold Well.sgn; split_ifs <;> simp
  have := C50aux.lift (fun t => cos (w * tau P E l a (rad (p t))))
    (fun t => Well.sgn (SphericalAA.vr (p t)) * sin (w * tau P E l a (rad (p t)))) (fun _ => w)
    (fun t => Well.sgn (SphericalAA.vr (p 0)) * (w * tau P E l a (rad (p 0))) + w * t)
    (fun t => (hX t).congr_deriv (by ring)) (fun t => (hY t).congr_deriv (by ring))
    (fun t => (((hasDerivAt_id t).const_mul w).const_add _).congr_deriv (by ring))
    (by rw [mul_zero, add_zero, hcs]) (by rw [mul_zero, add_zero, hsn]) t
  refine C50aux.same_symm (C50aux.same_of_cos_sin ?_ ?_)
  · rw [this.1, hcs]
  · rw [this.2, hsn]

/-- The angle in the orbital plane less its periodic part. -/
theorem swept (o : C77Spec.Orbit P a b p) (V : ℝ → ℝ) (hV : ∀ t, HasDerivAt V (L (p 0) / rad (p t) ^ 2) t) (t : ℝ) :
    let E := SphericalAA.E P (p 0)
    let l := L (p 0)
    ∀ Op, Op = l * eta P E l a b * (π / tau P E l a b) / π →
    V t - Well.sgn (SphericalAA.vr (p t)) * (l * eta P E l a (rad (p t)) - Op * tau P E l a (rad (p t)))
      = V 0 - Well.sgn (SphericalAA.vr (p 0)) * (l * eta P E l a (rad (p 0)) - Op * tau P E l a (rad (p 0))) + Op * t := by
  intro E l Op hOp
  have h : C77Spec.Bound P E l a b := bound' o 0
  have hW := well h
  have m := moves o
  have ht := (tau_pos h).ne'
  have hk := k_cont h
  have hD := Well.Moves.odd hW m (d := fun y => l * eta P E l a y - Op * tau P E l a y) (g := fun y => l * (1 / y ^ 2) - Op)
    ((continuousOn_const.mul (hW.T_cont hk)).sub (continuousOn_const.mul (hW.T_cont continuousOn_const)))
    ((continuousOn_const.mul hk).sub continuousOn_const)
    (by rw [eta_zero, tau_zero]; ring)
    (by
      rw [hOp]
      have := pi_pos.ne'
      field_simp
      ring)
    (fun y hy => (hd_sub ((hW.T_deriv hk hy).const_mul l) ((hW.T_deriv continuousOn_const hy).const_mul Op)).congr_deriv (by ring))
  exact C50aux.linear (fun t => V t
      - Well.sgn (SphericalAA.vr (p t)) * (l * eta P E l a (rad (p t)) - Op * tau P E l a (rad (p t)))) Op (fun t => by
    refine (hd_sub (hV t) (hD t)).congr_deriv ?_
    show l / rad (p t) ^ 2 - _ = _
    ring) t

/-- In the plane with negative angular momentum. -/
theorem retro_motion (m : C77Spec.Motion P.rforce p) (hLz : Lz (p 0) ≠ 0) (hi : ¬ (C50aux.N (p 0) ≠ 0 ∨ 0 < Lz (p 0))) :
    (∀ t, SphericalAA.asc (p t) = (p t).phi ∧ SphericalAA.psi (p t) = 0)
      ∧ ∀ t, HasDerivAt (fun s => -(p s).phi) (L (p 0) / rad (p t) ^ 2) t := by
  push Not at hi
  have hlt : Lz (p 0) < 0 := lt_of_le_of_ne hi.2 hLz
  have hT : ∀ t, (p t).vT < 0 := fun t => by
    have : Lz (p t) = Lz (p 0) := lz_const m t 0
    rw [← this] at hlt
    unfold Lz at hlt
    by_contra hn
    nlinarith [mul_nonneg (m.pos t).le (not_lt.1 hn)]
  have hN : ∀ t, C50aux.N (p t) = 0 := fun t => (n_const m t 0).trans hi.1
  have hz : ∀ t, (p t).z = 0 := fun t => (C50aux.planar (p t) (hN t) (hT t).ne).1
  have hvz : ∀ t, (p t).vz = 0 := fun t => by
    have h := m.z t
    rw [show (fun s => (p s).z) = fun _ => (0 : ℝ) from funext hz] at h
    exact h.unique (hasDerivAt_const t 0)
  refine ⟨fun t => ?_, fun t => ?_⟩
  · have := retro (p t) (hz t) (hvz t) (m.pos t) (hT t)
    refine ⟨?_, this.2⟩
    unfold SphericalAA.asc
    rw [this.1, sub_zero]
  · refine (m.phi t).neg.congr_deriv ?_
    have hR := m.pos t
    have hLL : L (p 0) = -((p t).R * (p t).vT) := by
      rw [← l_const m t 0]
      unfold L L2 Lz
      simp only [hz t, hvz t]
      rw [show -0 * (p t).vT * (-0 * (p t).vT) + (0 * (p t).vR - (p t).R * 0) * (0 * (p t).vR - (p t).R * 0)
        + (p t).R * (p t).vT * ((p t).R * (p t).vT) = (-((p t).R * (p t).vT)) ^ 2 by ring,
        sqrt_sq (by nlinarith [mul_neg_of_pos_of_neg hR (hT t)])]
    rw [hLL, rad_sq, hz t]
    field_simp
    ring

/-- The vertical angle before the final modulus. -/
theorem vertical (o : C77Spec.Orbit P a b p) (hLz : Lz (p 0) ≠ 0) (hi : C50aux.N (p 0) ≠ 0 ∨ 0 < Lz (p 0)) (t : ℝ) :
    let E := SphericalAA.E P (p 0)
    let l := L (p 0)
    ∀ Op, Op = l * eta P E l a b * (π / tau P E l a b) / π →
    C50Spec.Same (SphericalAA.psi (p t)
        - Well.sgn (SphericalAA.vr (p t)) * (l * eta P E l a (rad (p t)) - Op * tau P E l a (rad (p t))))
      (SphericalAA.psi (p 0)
        - Well.sgn (SphericalAA.vr (p 0)) * (l * eta P E l a (rad (p 0)) - Op * tau P E l a (rad (p 0))) + Op * t) := by
  intro E l Op hOp
  obtain ⟨⟨V, hV, hs⟩, -⟩ := plane o.motion hLz hi
  have hlin := swept o V hV t Op hOp
  have hpsi : ∀ s, C50Spec.Same (SphericalAA.psi (p s)) (V s) := fun s => by
    have hL : 0 < L (p s) := lt_of_lt_of_le (abs_pos.2 (by rw [lz_const o.motion s 0]; exact hLz)) (C50aux.Lz_le (p s))
    rw [psi_eq _ hL (by rw [n_const o.motion s 0, lz_const o.motion s 0]; exact hi)]
    exact C50aux.same_trans (C50aux.same_mod _) (hs s)
  have key : ∀ s, C50Spec.Same (SphericalAA.psi (p s)
        - Well.sgn (SphericalAA.vr (p s)) * (l * eta P E l a (rad (p s)) - Op * tau P E l a (rad (p s))))
      (V s - Well.sgn (SphericalAA.vr (p s)) * (l * eta P E l a (rad (p s)) - Op * tau P E l a (rad (p s)))) := fun s => by
    rw [sub_eq_add_neg, sub_eq_add_neg]
    exact C50aux.same_add (hpsi s) (C50aux.same_refl _)
  refine C50aux.same_trans (key t) ?_
  rw [hlin]
  exact C50aux.same_add (C50aux.same_symm (key 0)) (C50aux.same_refl _)

theorem node_const (o : C77Spec.Orbit P a b p) (hLz : Lz (p 0) ≠ 0) (hi : C50aux.N (p 0) ≠ 0 ∨ 0 < Lz (p 0)) (t : ℝ) :
    C50Spec.Same (SphericalAA.asc (p t)) (SphericalAA.asc (p 0)) := by
  have := (plane o.motion hLz hi).2 t
  unfold SphericalAA.asc
  rwa [node_eq _ (o.motion.pos t) (by rw [lz_const o.motion t 0]; exact hLz)
    (by rw [n_const o.motion t 0, lz_const o.motion t 0]; exact hi), node_eq _ (o.motion.pos 0) hLz hi]

theorem vT_neg (m : C77Spec.Motion P.rforce p) (t : ℝ) : (p t).vT < 0 ↔ (p 0).vT < 0 := by
  have h := lz_const m t 0
  have h1 := m.pos t
  have h2 := m.pos 0
  unfold Lz at h
  constructor <;> intro hv
  · by_contra hn
    have : (p t).R * (p t).vT < 0 := mul_neg_of_pos_of_neg h1 hv
    nlinarith [mul_nonneg h2.le (not_lt.1 hn)]
  · by_contra hn
    have : (p 0).R * (p 0).vT < 0 := mul_neg_of_pos_of_neg h2 hv
    nlinarith [mul_nonneg h1.le (not_lt.1 hn)]

theorem red {x y v : ℝ} (h : C50Spec.Same x (y + v)) : C50Spec.Same (mod2pi x) (mod2pi y + v) :=
  C50aux.same_trans (C50aux.same_mod x) (C50aux.same_trans h
    (C50aux.same_add (C50aux.same_symm (C50aux.same_mod y)) (C50aux.same_refl v)))

/-- What is computed at time `t`, when the radial action is not below the limit. -/
theorem compute_eq (o : C77Spec.Orbit P a b p) (hJ : 1 / 10 ^ 9 ≤ (SphericalAA.compute P (p 0) (a, b)).jr) (t : ℝ) :
    let E := SphericalAA.E P (p 0)
    let l := L (p 0)
    let w := π / tau P E l a b
    let Op := l * eta P E l a b * w / π
    let ar := if SphericalAA.vr (p t) < 0 then 2 * π - w * tau P E l a (rad (p t)) else w * tau P E l a (rad (p t))
    let az := SphericalAA.psi (p t)
      - Well.sgn (SphericalAA.vr (p t)) * (l * eta P E l a (rad (p t)) - Op * tau P E l a (rad (p t)))
    SphericalAA.compute P (p t) (a, b) = ⟨SphericalAA.calcJr P a b E l, Lz (p 0), SphericalAA.jz (p 0), w,
      (if (p 0).vT < 0 then Op * -1 else Op), Op, mod2pi ar,
      mod2pi (if (p 0).vT < 0 then SphericalAA.asc (p t) - az else SphericalAA.asc (p t) + az), mod2pi az⟩ := by
  intro E l w Op ar az
  have h : C77Spec.Bound P E l a b := bound' o 0
  have hJ' : ¬ SphericalAA.calcJr P a b E l < 1 / 10 ^ 9 := not_lt.2 hJ
  have hjz : SphericalAA.jz (p t) = SphericalAA.jz (p 0) := by
    unfold SphericalAA.jz
    rw [l_const o.motion t 0, lz_const o.motion t 0]
  have e1 := or_eq h
  have e2 := op_eq h w
  have e3 := angler_eq h (v := SphericalAA.vr (p t)) (rad_mem o t)
  have e4 := anglez_eq h (p t) (rad_mem o t) Op rfl
  simp only [SphericalAA.compute]
  rw [E_at o t, l_const o.motion t 0, lz_const o.motion t 0, hjz, if_neg hJ', if_neg hJ', e1, e2, e3, e4]
  by_cases hv : (p 0).vT < 0
  · have hv' := (vT_neg o.motion t).2 hv
    rw [if_pos hv', if_pos hv', if_pos hv, if_pos hv]
  · have hv' : ¬ (p t).vT < 0 := fun h => hv ((vT_neg o.motion t).1 h)
    rw [if_neg hv', if_neg hv', if_neg hv, if_neg hv]

end C77aux

/-- **C77 (actions, frequencies, angles).** Along every orbit between two turning points `actionsFreqsAngles` succeeds with exactly
one result at every time.  The actions are the same at all times; if the radial action is at least `10^-9` the frequencies
are the same at all times and, for orbits that are not polar, each angle advances linearly in time at its frequency, modulo
`2 pi`; for orbits in the plane with negative angular momentum the vertical angle, which has no meaning there, does not.

Missing for the full statement: polar orbits and radial actions below `10^-9` on orbits that are not circular. -/
theorem C77_angles_partial {P : Radial} {a b : ℝ} {p : ℝ → Point} (o : C77Spec.Orbit P a b p) (t : ℝ) :
    ∃ u v : Out, (∀ out, SphericalAA.Angles P (p 0) out ↔ out = some u) ∧ (∀ out, SphericalAA.Angles P (p t) out ↔ out = some v)
      ∧ v.jr = u.jr ∧ v.jphi = u.jphi ∧ v.jz = u.jz
      ∧ (1 / 10 ^ 9 ≤ u.jr → v.Or = u.Or ∧ v.Op = u.Op ∧ v.Oz = u.Oz
        ∧ C50Spec.Same v.ar (u.ar + u.Or * t)
        ∧ (u.jphi ≠ 0 → C50Spec.Same v.ap (u.ap + u.Op * t)
          ∧ (0 < u.jz ∨ 0 < u.jphi → C50Spec.Same v.az (u.az + u.Oz * t)))) := by
  refine ⟨SphericalAA.compute P (p 0) (a, b), SphericalAA.compute P (p t) (a, b), fun out => ?_, fun out => ?_, ?_, ?_, ?_, ?_⟩
  · simp only [SphericalAA.Angles, C77aux.outcome o 0]
    simp
  · simp only [SphericalAA.Angles, C77aux.outcome o t]
    simp
  · simp only [SphericalAA.compute]
    rw [C77aux.E_at o t, C77aux.l_const o.motion t 0]
  · exact C77aux.lz_const o.motion t 0
  · show SphericalAA.jz (p t) = SphericalAA.jz (p 0)
    unfold SphericalAA.jz
    rw [C77aux.l_const o.motion t 0, C77aux.lz_const o.motion t 0]
  · intro hJ
    rw [C77aux.compute_eq o hJ t, C77aux.compute_eq o hJ 0]
    refine ⟨rfl, rfl, rfl, ?_, fun hp => ?_⟩
    · refine C77aux.red ?_
      refine C50aux.same_trans (C77aux.same_sgn _ _) (C50aux.same_trans (C77aux.phase o t) ?_)
      exact C50aux.same_add (C50aux.same_symm (C77aux.same_sgn _ _)) (C50aux.same_refl _)
    by_cases hi' : C50aux.N (p 0) ≠ 0 ∨ 0 < Lz (p 0)
    · have hz := C77aux.vertical o hp hi' t _ rfl
      refine ⟨C77aux.red ?_, fun _ => C77aux.red hz⟩
      have hn := C77aux.node_const o hp hi' t
      dsimp only
      split_ifs with hv
      · refine C50aux.same_trans (by simpa only [sub_eq_add_neg] using C50aux.same_add hn (C50aux.same_neg hz)) ⟨0, ?_⟩
        push_cast
        ring
      · refine C50aux.same_trans (C50aux.same_add hn hz) ⟨0, ?_⟩
        push_cast
        ring
    · obtain ⟨hr, hd⟩ := C77aux.retro_motion o.motion hp hi'
      have hsw := C77aux.swept o _ hd t _ rfl
      have hv : (p 0).vT < 0 := by
        push Not at hi'
        have h0 : Lz (p 0) < 0 := lt_of_le_of_ne hi'.2 hp
        by_contra hn
        have := mul_nonneg (o.motion.pos 0).le (not_lt.1 hn)
        unfold Lz at h0
        linarith
      refine ⟨C77aux.red ⟨0, ?_⟩, fun hi => absurd (hi.imp (fun h => ((C50aux.N_pos_iff (p 0) hp).2 h).ne') id) hi'⟩
      dsimp only
      rw [if_pos hv, if_pos hv, if_pos hv, (hr t).1, (hr t).2, (hr 0).1, (hr 0).2]
      push_cast
      linarith


namespace C77aux
variable {P : Radial} {a b : ℝ} {p : ℝ → Point}

theorem tau_mono {E l : ℝ} (h : C77Spec.Bound P E l a b) : StrictMonoOn (tau P E l a) (Icc a b) := by
  have hW := well h
  refine strictMonoOn_of_deriv_pos (convex_Icc a b) (hW.T_cont continuousOn_const) fun x hx => ?_
  rw [interior_Icc] at hx
  unfold tau
  rw [(hW.T_deriv continuousOn_const hx).deriv]
  have := hW.pos x hx
  simp only [Well.w, one_mul]
  positivity

/-- The cosine of the radial angle determines the radius. -/
theorem rad_of_cos {E l : ℝ} (h : C77Spec.Bound P E l a b) {x y : ℝ} (hx : x ∈ Icc a b) (hy : y ∈ Icc a b)
    (e : cos (π / tau P E l a b * tau P E l a x) = cos (π / tau P E l a b * tau P E l a y)) : x = y := by
  have ht := tau_pos h
  have hmem : ∀ z ∈ Icc a b, π / tau P E l a b * tau P E l a z ∈ Icc 0 π := fun z hz => by
    have hm := (tau_mono h).monotoneOn
    have h1 := hm ⟨le_rfl, (well h).lt.le⟩ hz hz.1
    have h2 := hm hz ⟨(well h).lt.le, le_rfl⟩ hz.2
    rw [tau_zero] at h1
    refine ⟨by positivity, ?_⟩
    rw [div_mul_eq_mul_div, div_le_iff₀ ht]
    exact mul_le_mul_of_nonneg_left h2 pi_pos.le
  have := injOn_cos (hmem x hx) (hmem y hy) e
  have hne : π / tau P E l a b ≠ 0 := by positivity
  exact (tau_mono h).injOn hx hy (mul_left_cancel₀ hne this)

theorem same_cos {x y : ℝ} (h : C50Spec.Same x y) : cos x = cos y := by
  obtain ⟨n, rfl⟩ := h
  rw [show y + 2 * π * n = y + n * (2 * π) by ring]
  exact cos_add_int_mul_two_pi y n

theorem cos_sgn (v x : ℝ) : cos (Well.sgn v * x) = cos x := by
  unfold Well.sgn; split_ifs <;> simp

end C77aux

/-- **C77 (period).** The radius returns to its value after `2 pi / Or`. -/
theorem C77_period {P : Radial} {a b : ℝ} {p : ℝ → Point} (o : C77Spec.Orbit P a b p) (u : Out)
    (hu : SphericalAA.Angles P (p 0) (some u)) (hJ : 1 / 10 ^ 9 ≤ u.jr) :
    0 < u.Or ∧ ∀ t, √((p (t + 2 * π / u.Or)).R ^ 2 + (p (t + 2 * π / u.Or)).z ^ 2) = √((p t).R ^ 2 + (p t).z ^ 2) := by
  have hu' : u = SphericalAA.compute P (p 0) (a, b) := by
    obtain ⟨rr, h1, h2⟩ := hu
    rw [(C77aux.outcome o 0 rr).1 h1] at h2
    simpa using h2
  have h := C77aux.bound' o 0
  have ht := C77aux.tau_pos h
  have hOr : u.Or = π / C77aux.tau P (SphericalAA.E P (p 0)) (L (p 0)) a b := by
    rw [hu'] at hJ ⊢
    rw [C77aux.compute_eq o hJ 0]
  have hpos : 0 < u.Or := by rw [hOr]; positivity
  refine ⟨hpos, fun t => ?_⟩
  refine C77aux.rad_of_cos h (C77aux.rad_mem o _) (C77aux.rad_mem o _) ?_
  have h1 := C77aux.same_cos (C77aux.phase o (t + 2 * π / u.Or))
  have h2 := C77aux.same_cos (C77aux.phase o t)
  rw [C77aux.cos_sgn] at h1 h2
  refine h1.trans (Eq.trans ?_ h2.symm)
  rw [← hOr, mul_add, mul_div_cancel₀ _ hpos.ne', ← add_assoc, cos_add_two_pi]

/-- **C77 (radial action).** The radial action is the integral of the squared radial velocity over one radial period, divided by
`2 pi`. -/
theorem C77_jr {P : Radial} {a b : ℝ} {p : ℝ → Point} (o : C77Spec.Orbit P a b p) (u : Out)
    (hu : SphericalAA.Angles P (p 0) (some u)) (hJ : 1 / 10 ^ 9 ≤ u.jr) :
    2 * π * u.jr = ∫ t in (0 : ℝ)..2 * π / u.Or,
      (((p t).R * (p t).vR + (p t).z * (p t).vz) / √((p t).R ^ 2 + (p t).z ^ 2)) ^ 2 := by
  have hu' : u = SphericalAA.compute P (p 0) (a, b) := by
    obtain ⟨rr, h1, h2⟩ := hu
    rw [(C77aux.outcome o 0 rr).1 h1] at h2
    simpa using h2
  have h := C77aux.bound' o 0
  have hW := C77aux.well h
  have m := C77aux.moves o
  have hOr : u.Or = π / C77aux.tau P (SphericalAA.E P (p 0)) (L (p 0)) a b := by
    rw [hu'] at hJ ⊢
    rw [C77aux.compute_eq o hJ 0]
  have hP : 2 * π / u.Or = 2 * Well.half (rapRperiEq P.phi (SphericalAA.E P (p 0)) (L (p 0))) a b := by
    rw [hOr]
    have := (C77aux.tau_pos h).ne'
    show 2 * π / (π / C77aux.tau P (SphericalAA.E P (p 0)) (L (p 0)) a b) = 2 * C77aux.tau P (SphericalAA.E P (p 0)) (L (p 0)) a b
    have := pi_pos.ne'
    field_simp
  have hm := m.mean hW (k := fun r => 2 * rapRperiEq P.phi (SphericalAA.E P (p 0)) (L (p 0)) r) (continuousOn_const.mul hW.contW)
  have hj : u.jr = Well.T (rapRperiEq P.phi (SphericalAA.E P (p 0)) (L (p 0)))
      (fun r => 2 * rapRperiEq P.phi (SphericalAA.E P (p 0)) (L (p 0)) r) a b / π := by
    rw [hu']
    show SphericalAA.calcJr P a b _ _ = _
    unfold SphericalAA.calcJr Well.T
    congr 1
    refine intervalIntegral.integral_congr fun r _ => ?_
    simp only
    rw [C77aux.jr_form, Well.w, mul_one_div, div_sqrt]
  rw [hj, hP, mul_div_assoc', mul_right_comm, mul_div_assoc, div_self pi_pos.ne', mul_one, ← hm]
  refine intervalIntegral.integral_congr fun t _ => ?_
  exact (m.energy t).symm.trans rfl

/-- **C77 (pericentre, apocentre, eccentricity, maximum height).** `EccZmaxRperiRap` has exactly one result, the same at all
times: the least and the largest radius of the orbit, both reached, their relative difference, and a bound for the height. -/
theorem C77_ecc {P : Radial} {a b : ℝ} {p : ℝ → Point} (o : C77Spec.Orbit P a b p) :
    ∃ e zmax rperi rap : ℝ, (∀ t out, SphericalAA.Ecc P (p t) out ↔ out = some (e, zmax, rperi, rap))
      ∧ (∀ t, rperi ≤ √((p t).R ^ 2 + (p t).z ^ 2) ∧ √((p t).R ^ 2 + (p t).z ^ 2) ≤ rap ∧ |(p t).z| ≤ zmax)
      ∧ (∃ t, √((p t).R ^ 2 + (p t).z ^ 2) = rperi) ∧ (∃ t, √((p t).R ^ 2 + (p t).z ^ 2) = rap)
      ∧ e * (rap + rperi) = rap - rperi := by
  have h := C77aux.bound' o 0
  have ht := C77aux.tau_pos h
  have ha := C77aux.a0 h
  have hab := (C77aux.well h).lt
  have hb : 0 < b := ha.trans hab
  have hL := C77aux.l_nonneg h
  have hL2 : L2 (p 0) = L (p 0) ^ 2 := (sq_sqrt (C50aux.L2_nonneg _)).symm
  have hNL : √(1 - Lz (p 0) ^ 2 / L2 (p 0)) = C50aux.N (p 0) / L (p 0) := by
    rw [hL2, eq_div_iff hL.ne', ← sqrt_sq hL.le, ← sqrt_mul' _ (by positivity), sqrt_sq hL.le]
    unfold C50aux.N
    congr 1
    field_simp
  refine ⟨(b - a) / (b + a), b * √(1 - Lz (p 0) ^ 2 / L2 (p 0)), a, b, fun t out => ?_, fun t => ⟨(C77aux.rad_mem o t).1,
    (C77aux.rad_mem o t).2, ?_⟩, ?_, ?_, by field_simp⟩
  · simp only [SphericalAA.Ecc, C77aux.outcome o t, C77aux.lz_const o.motion t 0, C77aux.l2_const o.motion t 0]
    simp
  · rw [hNL]
    have hr := C77aux.rad_pos o.motion t
    have hrb := (C77aux.rad_mem o t).2
    have hN0 : 0 ≤ C50aux.N (p 0) := sqrt_nonneg _
    have hzr : |(p t).z| * L (p 0) ≤ rad (p t) * C50aux.N (p 0) := by
      refine abs_le_of_sq_le_sq' ?_ (by positivity) |>.2
      rw [← C77aux.n_const o.motion t 0, ← C77aux.l_const o.motion t 0, mul_pow, mul_pow, sq_abs, C77aux.rad_sq, C50aux.N_sq]
      have h1 := C50aux.N_eq (p t)
      unfold Lz at h1
      have h2 : L (p t) ^ 2 = ((p t).z * (p t).vT) ^ 2 + ((p t).R * (p t).vz - (p t).z * (p t).vR) ^ 2 + ((p t).R * (p t).vT) ^ 2 := by
        linarith
      rw [h2]
      nlinarith [sq_nonneg ((p t).R * ((p t).R * (p t).vz - (p t).z * (p t).vR))]
    calc |(p t).z| = |(p t).z| * L (p 0) / L (p 0) := by field_simp
      _ ≤ rad (p t) * C50aux.N (p 0) / L (p 0) := by gcongr
      _ ≤ b * C50aux.N (p 0) / L (p 0) := by gcongr
      _ = b * (C50aux.N (p 0) / L (p 0)) := by ring
  all_goals
    have hw : 0 < π / C77aux.tau P (SphericalAA.E P (p 0)) (L (p 0)) a b := by positivity
    generalize hθ : Well.sgn (SphericalAA.vr (p 0)) * (π / C77aux.tau P (SphericalAA.E P (p 0)) (L (p 0)) a b
      * C77aux.tau P (SphericalAA.E P (p 0)) (L (p 0)) a (rad (p 0))) = θ
  · refine ⟨-θ / (π / C77aux.tau P (SphericalAA.E P (p 0)) (L (p 0)) a b), ?_⟩
    refine C77aux.rad_of_cos h (C77aux.rad_mem o _) ⟨le_rfl, hab.le⟩ ?_
    have h1 := C77aux.same_cos (C77aux.phase o (-θ / (π / C77aux.tau P (SphericalAA.E P (p 0)) (L (p 0)) a b)))
    rw [C77aux.cos_sgn, hθ, mul_div_cancel₀ _ hw.ne'] at h1
    refine h1.trans ?_
    rw [C77aux.tau_zero]
    simp
  · refine ⟨(π - θ) / (π / C77aux.tau P (SphericalAA.E P (p 0)) (L (p 0)) a b), ?_⟩
    refine C77aux.rad_of_cos h (C77aux.rad_mem o _) ⟨hab.le, le_rfl⟩ ?_
    have h1 := C77aux.same_cos (C77aux.phase o ((π - θ) / (π / C77aux.tau P (SphericalAA.E P (p 0)) (L (p 0)) a b)))
    rw [C77aux.cos_sgn, hθ, mul_div_cancel₀ _ hw.ne'] at h1
    refine h1.trans ?_
    rw [div_mul_cancel₀ _ ht.ne']
    congr 1
    ring

/-- **C77 (the three methods agree).** Calling the object, `actionsFreqs` and `actionsFreqsAngles` have the same possible outcomes,
as far as the quantities are common to them. -/
theorem C77_agree (P : Radial) (p : Point) :
    (∀ out, SphericalAA.Freqs P p out ↔ ∃ o, SphericalAA.Angles P p o ∧ out = o.map fun u => (u.jr, u.jphi, u.jz, u.Or, u.Op, u.Oz))
      ∧ (∀ out, SphericalAA.Actions P p out ↔ ∃ o, SphericalAA.Angles P p o ∧ out = o.map fun u => (u.jr, u.jphi, u.jz)) := by
  constructor
  · intro out
    constructor
    · rintro ⟨rr, h, rfl⟩
      refine ⟨_, ⟨rr, h, rfl⟩, ?_⟩
      cases rr <;> rfl
    · rintro ⟨o, ⟨rr, h, rfl⟩, rfl⟩
      refine ⟨rr, h, ?_⟩
      cases rr <;> rfl
  · intro out
    constructor
    · rintro ⟨rr, h, rfl⟩
      refine ⟨_, ⟨rr, h, rfl⟩, ?_⟩
      cases rr <;> rfl
    · rintro ⟨o, ⟨rr, h, rfl⟩, rfl⟩
      refine ⟨rr, h, ?_⟩
      cases rr <;> rfl


namespace C77aux
variable {P : Radial} {p : ℝ → Point} {r : ℝ}

theorem circ_vr (m : C77Spec.Motion P.rforce p) (hr : ∀ t, √((p t).R ^ 2 + (p t).z ^ 2) = r) (t : ℝ) : SphericalAA.vr (p t) = 0 := by
  have h := drad m t
  have e : (fun s => rad (p s)) = fun _ => r := funext hr
  rw [e] at h
  exact h.unique (hasDerivAt_const t r)

theorem circ_force (m : C77Spec.Motion P.rforce p) (hr : ∀ t, √((p t).R ^ 2 + (p t).z ^ 2) = r) (t : ℝ) :
    P.rforce r = -(L (p t) ^ 2 / r ^ 3) := by
  have h := dvr m t
  have e : (fun s => SphericalAA.vr (p s)) = fun _ => 0 := funext (circ_vr m hr)
  rw [e] at h
  have h2 := h.unique (hasDerivAt_const t 0)
  rw [show rad (p t) = r from hr t] at h2
  linarith

theorem circ_compute (m : C77Spec.Motion P.rforce p) (hr : ∀ t, √((p t).R ^ 2 + (p t).z ^ 2) = r) (t : ℝ) :
    (∀ rr, RperiRap P (rad (p t)) (SphericalAA.vr (p t)) (SphericalAA.vt (p t)) (SphericalAA.E P (p t)) (L (p t)) rr ↔ rr = some (r, r))
      ∧ SphericalAA.compute P (p t) (r, r) = ⟨0, Lz (p 0), SphericalAA.jz (p 0), P.epifreq r,
        (if (p 0).vT < 0 then L (p 0) / r ^ 2 * -1 else L (p 0) / r ^ 2), L (p 0) / r ^ 2, mod2pi π,
        mod2pi (if (p 0).vT < 0 then SphericalAA.asc (p t) - SphericalAA.psi (p t) else SphericalAA.asc (p t) + SphericalAA.psi (p t)),
        mod2pi (SphericalAA.psi (p t))⟩ := by
  have hrad : rad (p t) = r := hr t
  have hr0 : 0 < r := hrad ▸ rad_pos m t
  have hv := circ_vr m hr t
  have hf := circ_force m hr t
  have hl0 : 0 ≤ L (p t) := sqrt_nonneg _
  have hvc : P.vcirc r = L (p t) / r := by
    unfold Radial.vcirc
    rw [hf, show r * - -(L (p t) ^ 2 / r ^ 3) = (L (p t) / r) ^ 2 by field_simp, sqrt_sq (by positivity)]
  have hom : P.omegac r = L (p t) / r ^ 2 := by
    unfold Radial.omegac
    rw [hf, show - -(L (p t) ^ 2 / r ^ 3) / r = (L (p t) / r ^ 2) ^ 2 by field_simp, sqrt_sq (by positivity)]
  have hjz : SphericalAA.jz (p t) = SphericalAA.jz (p 0) := by
    unfold SphericalAA.jz
    rw [l_const m t 0, lz_const m t 0]
  refine ⟨fun rr => ?_, ?_⟩
  · unfold RperiRap
    dsimp only
    rw [hrad, if_pos ⟨hv, by unfold SphericalAA.vt; rw [hrad, hvc, sub_self, abs_zero]; norm_num⟩]
  · have hJ : SphericalAA.calcJr P r r (SphericalAA.E P (p t)) (L (p t)) = 0 := by simp [SphericalAA.calcJr]
    have hm : rmean r r = r := by
      unfold rmean
      rw [if_pos hr0, show (log r + log r) / 2 = log r by ring, exp_log hr0]
    have hsmall : (0 : ℝ) < 1 / 10 ^ 9 := by norm_num
    have hvn : ¬ SphericalAA.vr (p t) < 0 := by rw [hv]; exact lt_irrefl 0
    have har : ∀ Or, SphericalAA.calcAngler P Or r r r r (SphericalAA.E P (p t)) (L (p t)) (SphericalAA.vr (p t)) = π := fun Or => by
      simp only [SphericalAA.calcAngler]
      rw [if_neg (lt_irrefl r), if_neg (lt_irrefl r), if_neg hvn, sub_zero]
    have haz : ∀ Or Op, SphericalAA.calcAnglez P Or Op π r r r (SphericalAA.E P (p t)) (L (p t)) (p t) = SphericalAA.psi (p t) := by
      intro Or Op
      simp only [SphericalAA.calcAnglez, SphericalAA.calcWz]
      rw [hrad, if_neg (lt_irrefl r), if_neg hvn, if_pos (by simp)]
      ring
    simp only [SphericalAA.compute]
    rw [hJ, if_pos hsmall, if_pos hsmall, hrad, hm, har, haz, hom, hjz, l_const m t 0, lz_const m t 0]
    by_cases hv : (p 0).vT < 0
    · have hv' := (vT_neg m t).2 hv
      rw [if_pos hv', if_pos hv', if_pos hv, if_pos hv]
    · have hv' : ¬ (p t).vT < 0 := fun h => hv ((vT_neg m t).1 h)
      rw [if_neg hv', if_neg hv', if_neg hv, if_neg hv]

end C77aux

/-- **C77 (circular orbits).** On a circular orbit the result is unique, the radial action is nought, the radial angle is always
`pi`, the vertical frequency is the angular velocity, and the other angles advance at their frequencies. -/
theorem C77_circular {P : Radial} {p : ℝ → Point} {r : ℝ} (m : C77Spec.Motion P.rforce p)
    (hr : ∀ t, √((p t).R ^ 2 + (p t).z ^ 2) = r) (t : ℝ) :
    ∃ u v : Out, (∀ out, SphericalAA.Angles P (p 0) out ↔ out = some u) ∧ (∀ out, SphericalAA.Angles P (p t) out ↔ out = some v)
      ∧ u.jr = 0 ∧ v.jr = 0 ∧ v.jphi = u.jphi ∧ v.jz = u.jz ∧ v.Or = u.Or ∧ v.Op = u.Op ∧ v.Oz = u.Oz
      ∧ u.Oz = √(C50Spec.angmom2 (p 0)) / r ^ 2 ∧ u.ar = π ∧ v.ar = π
      ∧ (u.jphi ≠ 0 → C50Spec.Same v.ap (u.ap + u.Op * t)
        ∧ (0 < u.jz ∨ 0 < u.jphi → C50Spec.Same v.az (u.az + u.Oz * t))) := by
  have h0 := C77aux.circ_compute m hr 0
  have ht := C77aux.circ_compute m hr t
  have hpi : mod2pi π = π := by
    unfold mod2pi
    have : ⌊π / (2 * π)⌋ = 0 := by
      rw [Int.floor_eq_zero_iff, show π / (2 * π) = 1 / 2 by have := pi_pos.ne'; field_simp]
      norm_num
    rw [this]
    simp
  refine ⟨SphericalAA.compute P (p 0) (r, r), SphericalAA.compute P (p t) (r, r), fun out => ?_, fun out => ?_, ?_⟩
  · simp only [SphericalAA.Angles, h0.1]
    simp
  · simp only [SphericalAA.Angles, ht.1]
    simp
  · rw [h0.2, ht.2]
    refine ⟨rfl, rfl, rfl, rfl, rfl, rfl, rfl, ?_, hpi, hpi, fun hp => ?_⟩
    · rw [← C50aux.L2_eq]; rfl
    by_cases hi' : C50aux.N (p 0) ≠ 0 ∨ 0 < Lz (p 0)
    · obtain ⟨⟨V, hV, hs⟩, hn⟩ := C77aux.plane m hp hi'
      have hlin := C50aux.linear V (L (p 0) / r ^ 2) (fun s => by
        have := hV s
        rwa [show rad (p s) = r from hr s] at this) t
      have hpsi : ∀ s, C50Spec.Same (SphericalAA.psi (p s)) (V s) := fun s => by
        have hL : 0 < L (p s) := lt_of_lt_of_le (abs_pos.2 (by rw [C77aux.lz_const m s 0]; exact hp)) (C50aux.Lz_le (p s))
        rw [C77aux.psi_eq _ hL (by rw [C77aux.n_const m s 0, C77aux.lz_const m s 0]; exact hi')]
        exact C50aux.same_trans (C50aux.same_mod _) (hs s)
      have hz : C50Spec.Same (SphericalAA.psi (p t)) (SphericalAA.psi (p 0) + L (p 0) / r ^ 2 * t) := by
        refine C50aux.same_trans (hpsi t) ?_
        rw [hlin]
        exact C50aux.same_add (C50aux.same_symm (hpsi 0)) (C50aux.same_refl _)
      have hn' : C50Spec.Same (SphericalAA.asc (p t)) (SphericalAA.asc (p 0)) := by
        have := hn t
        unfold SphericalAA.asc
        rwa [C77aux.node_eq _ (m.pos t) (by rw [C77aux.lz_const m t 0]; exact hp)
          (by rw [C77aux.n_const m t 0, C77aux.lz_const m t 0]; exact hi'), C77aux.node_eq _ (m.pos 0) hp hi']
      refine ⟨C77aux.red ?_, fun _ => C77aux.red hz⟩
      dsimp only
      split_ifs with hv
      · refine C50aux.same_trans (by simpa only [sub_eq_add_neg] using C50aux.same_add hn' (C50aux.same_neg hz)) ⟨0, ?_⟩
        push_cast
        ring
      · refine C50aux.same_trans (C50aux.same_add hn' hz) ⟨0, ?_⟩
        push_cast
        ring
    · obtain ⟨hq, hd⟩ := C77aux.retro_motion m hp hi'
      have hlin := C50aux.linear (fun s => -(p s).phi) (L (p 0) / r ^ 2) (fun s => by
        have := hd s
        rwa [show rad (p s) = r from hr s] at this) t
      have hv : (p 0).vT < 0 := by
        push Not at hi'
        have h0 : Lz (p 0) < 0 := lt_of_le_of_ne hi'.2 hp
        by_contra hn
        have := mul_nonneg (m.pos 0).le (not_lt.1 hn)
        unfold Lz at h0
        linarith
      refine ⟨C77aux.red ⟨0, ?_⟩, fun hi => absurd (hi.imp (fun h => ((C50aux.N_pos_iff (p 0) hp).2 h).ne') id) hi'⟩
      dsimp only at hlin ⊢
      rw [if_pos hv, if_pos hv, if_pos hv, (hq t).1, (hq t).2, (hq 0).1, (hq 0).2]
      push_cast
      linarith

/-! ### A concrete orbit -/

/-- The Kepler potential. -/
def C77aux.kepler : Radial := ⟨fun r => -1 / r, fun r => -1 / r ^ 2, fun r => -2 / r ^ 3⟩

theorem C77aux.keplerOrbit : ∃ p : ℝ → Point, C77Spec.Orbit C77aux.kepler (2 / 5) (8 / 5) p
    ∧ (∃ u, SphericalAA.Angles C77aux.kepler (p 0) (some u) ∧ 1 / 10 ^ 9 ≤ u.jr ∧ u.jphi ≠ 0 ∧ 0 < u.jz ∧ 0 < u.jphi) := by
  obtain ⟨p, hp, h1, h2, h3, h4, h5⟩ := C50aux.ellipse
  have hE : C77Spec.energy C77aux.kepler (p 0) = -(1 / 2) := by
    unfold C77Spec.energy C77aux.kepler
    rw [h1, h2, h3, h4, h5, show ((2 / 5 : ℝ) ^ 2 + 0 ^ 2) = (2 / 5) ^ 2 by norm_num, sqrt_sq (by norm_num)]
    norm_num
  have hl : √(C50Spec.angmom2 (p 0)) = 4 / 5 := by
    unfold C50Spec.angmom2
    rw [h1, h2, h3, h4, h5, show ((0 : ℝ) * (6 / 5)) ^ 2 + (0 * 0 - 2 / 5 * (8 / 5)) ^ 2 + (2 / 5 * (6 / 5)) ^ 2 = (4 / 5) ^ 2 by norm_num,
      sqrt_sq (by norm_num)]
  have hW : ∀ r : ℝ, 0 < r → -(1 / 2) - -1 / r - (4 / 5) ^ 2 / (2 * r ^ 2) = (r - 2 / 5) * (8 / 5 - r) / (2 * r ^ 2) := fun r hr => by
    field_simp
    ring
  have m : C77Spec.Motion C77aux.kepler.rforce p := by
    refine ⟨hp.pos, hp.R, hp.z, hp.phi, fun t => (hp.vR t).congr_deriv ?_, hp.vT, fun t => (hp.vz t).congr_deriv ?_⟩
    all_goals
      have hR := hp.pos t
      have hr : 0 < √((p t).R ^ 2 + (p t).z ^ 2) := sqrt_pos.2 (by positivity)
      simp only [C77aux.kepler, zero_pow two_ne_zero, zero_add]
      field_simp
      try ring
  have o : C77Spec.Orbit C77aux.kepler (2 / 5) (8 / 5) p := by
    refine ⟨m, ?_⟩
    rw [hE, hl]
    refine ⟨by norm_num, by norm_num, by norm_num, fun r hr => ?_, ?_, ?_, ?_, ?_, fun r h1 h2 => ?_, fun r hr h => ?_, ?_, ?_⟩
    · refine (hd_div (hasDerivAt_const r (-1 : ℝ)) (hasDerivAt_id r) hr.ne').congr_deriv ?_
      simp only [C77aux.kepler, id]
      field_simp
      ring
    · exact continuousOn_const.div (by fun_prop) fun x hx => pow_ne_zero 2 (ne_of_gt hx)
    · simp only [C77aux.kepler]; norm_num
    · simp only [C77aux.kepler]; rw [hW _ (by norm_num)]; norm_num
    · simp only [C77aux.kepler]; rw [hW _ (by norm_num)]; norm_num
    · simp only [C77aux.kepler]
      have hr : 0 < r := by linarith
      rw [hW r hr]
      exact div_pos (mul_pos (by linarith) (by linarith)) (by positivity)
    · simp only [C77aux.kepler]
      rw [hW r hr]
      refine div_neg_of_neg_of_pos ?_ (by positivity)
      rcases h with h | h
      · exact mul_neg_of_neg_of_pos (by linarith) (by linarith)
      · exact mul_neg_of_pos_of_neg (by linarith) (by linarith)
    · simp only [C77aux.kepler]
      have : √(2 / 5 * -(-1 / (2 / 5 : ℝ) ^ 2)) ≤ 8 / 5 := by
        rw [sqrt_le_iff]; norm_num
      refine le_trans (add_le_add_left this _) ?_
      norm_num
    · simp only [C77aux.kepler]
      have : 3 / 4 ≤ √(8 / 5 * -(-1 / (8 / 5 : ℝ) ^ 2)) := by
        refine le_sqrt_of_sq_le ?_; norm_num
      refine le_trans ?_ this
      norm_num
  refine ⟨p, o, SphericalAA.compute C77aux.kepler (p 0) (2 / 5, 8 / 5), ⟨_, (C77aux.outcome o 0 _).2 rfl, rfl⟩, ?_, ?_, ?_, ?_⟩
  · have hb := C77aux.bound' o 0
    have hEE : SphericalAA.E C77aux.kepler (p 0) = -(1 / 2) := by rw [C77aux.E_form, hE]
    have hLL : L (p 0) = 4 / 5 := by unfold L; rw [C50aux.L2_eq, hl]
    show 1 / 10 ^ 9 ≤ SphericalAA.calcJr C77aux.kepler (2 / 5) (8 / 5) _ _
    rw [hEE, hLL] at hb ⊢
    unfold SphericalAA.calcJr
    have hcont : ContinuousOn (jrIntegrand C77aux.kepler (-(1 / 2)) (4 / 5)) (Icc (2 / 5) (8 / 5)) := by
      have : jrIntegrand C77aux.kepler (-(1 / 2)) (4 / 5) = fun r => √(2 * rapRperiEq C77aux.kepler.phi (-(1 / 2)) (4 / 5) r) :=
        funext (C77aux.jr_form _ _ _)
      rw [this]
      exact (continuousOn_const.mul (C77aux.well hb).contW).sqrt
    have hii : IntervalIntegrable (jrIntegrand C77aux.kepler (-(1 / 2)) (4 / 5)) volume (2 / 5) (8 / 5) :=
      ContinuousOn.intervalIntegrable (by rwa [uIcc_of_le (by norm_num)])
    have h3 : ∫ r in (4 / 5 : ℝ)..(6 / 5), (1 / 3 : ℝ) ≤ ∫ r in (4 / 5 : ℝ)..(6 / 5), jrIntegrand C77aux.kepler (-(1 / 2)) (4 / 5) r := by
      refine intervalIntegral.integral_mono_on (by norm_num) (by simp) ?_ fun x hx => ?_
      · refine ContinuousOn.intervalIntegrable (hcont.mono ?_)
        rw [uIcc_of_le (by norm_num)]
        exact Icc_subset_Icc (by norm_num) (by norm_num)
      · rw [C77aux.jr_form, C77aux.eq_form]
        refine le_sqrt_of_sq_le ?_
        have hx0 : 0 < x := by linarith [hx.1]
        simp only [C77aux.kepler]
        rw [hW x hx0, mul_div_assoc', mul_div_mul_left _ _ two_ne_zero, le_div_iff₀ (by positivity)]
        have h4 := hx.1
        have h5 := hx.2
        nlinarith
    have h4 : ∫ r in (4 / 5 : ℝ)..(6 / 5), jrIntegrand C77aux.kepler (-(1 / 2)) (4 / 5) r
        ≤ ∫ r in (2 / 5 : ℝ)..(8 / 5), jrIntegrand C77aux.kepler (-(1 / 2)) (4 / 5) r :=
      intervalIntegral.integral_mono_interval (by norm_num) (by norm_num) (by norm_num)
        (Filter.Eventually.of_forall fun x => sqrt_nonneg _) hii
    rw [intervalIntegral.integral_const, smul_eq_mul] at h3
    rw [le_div_iff₀ pi_pos]
    have := pi_lt_four
    linarith [show (1 : ℝ) / 10 ^ 9 * π ≤ 1 / 10 ^ 9 * 4 from mul_le_mul_of_nonneg_left this.le (by norm_num)]
  · show Lz (p 0) ≠ 0
    unfold Lz; rw [h1, h4]; norm_num
  · show 0 < L (p 0) - |Lz (p 0)|
    have hLL : L (p 0) = 4 / 5 := by unfold L; rw [C50aux.L2_eq, hl]
    rw [hLL]; unfold Lz; rw [h1, h4]; norm_num [abs_of_pos]
  · show 0 < Lz (p 0)
    unfold Lz; rw [h1, h4]; norm_num

/-- A case of `C77_angles_partial`, `C77_period` and `C77_ecc`: the hypotheses hold for the inclined ellipse. -/
example : ∃ p : ℝ → Point, C77Spec.Orbit C77aux.kepler (2 / 5) (8 / 5) p
    ∧ (∃ u, SphericalAA.Angles C77aux.kepler (p 0) (some u) ∧ 1 / 10 ^ 9 ≤ u.jr ∧ u.jphi ≠ 0 ∧ 0 < u.jz ∧ 0 < u.jphi) := C77aux.keplerOrbit

/-- A case of `C77_circular`: the circle in the plane. -/
example : C77Spec.Motion C77aux.kepler.rforce (fun t => ⟨1, 0, 1, 0, 0, t⟩) ∧ ∀ _t : ℝ, √((1 : ℝ) ^ 2 + 0 ^ 2) = 1 := by
  refine ⟨⟨fun t => one_pos, fun t => hasDerivAt_const _ _, fun t => hasDerivAt_const _ _, fun t => ?_, fun t => ?_, fun t => ?_,
    fun t => ?_⟩, fun _ => by norm_num⟩
  · exact (hasDerivAt_id' t).congr_deriv (by norm_num)
  · simpa [C77aux.kepler] using hasDerivAt_const t (0 : ℝ)
  · simpa using hasDerivAt_const t (1 : ℝ)
  · simpa [C77aux.kepler] using hasDerivAt_const t (0 : ℝ)

/-- The same circle the other way round, for which the angles are computed differently. -/
example : C77Spec.Motion C77aux.kepler.rforce (fun t => ⟨1, 0, -1, 0, 0, -t⟩) := by
  refine ⟨fun t => one_pos, fun t => hasDerivAt_const _ _, fun t => hasDerivAt_const _ _, fun t => ?_, fun t => ?_, fun t => ?_,
    fun t => ?_⟩
  · exact (hasDerivAt_id' t).neg.congr_deriv (by norm_num)
  · simpa [C77aux.kepler] using hasDerivAt_const t (0 : ℝ)
  · simpa using hasDerivAt_const t (-1 : ℝ)
  · simpa [C77aux.kepler] using hasDerivAt_const t (0 : ℝ)

end Verif
