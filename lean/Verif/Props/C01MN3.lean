import Verif.Model.Pot.MN3Exponential
import Verif.Lemmas.Pot.MiyamotoNagai
import Verif.Lemmas.Pot.Sum

set_option autoImplicit false

/-! # C01, C02, C03, C51: MN3ExponentialDiskPotential -/

noncomputable section
namespace Verif
open Real Filter Topology MN3Exponential

namespace C01MN3aux
variable (s : Bool) (p : Par)

/-- The three disks are regular at `(R, z)`. -/
def Reg (R z : ℝ) : Prop := 0 < z ^ 2 + p.b ^ 2 ∧ 0 < R ^ 2 + (p.a1 + √(z ^ 2 + p.b ^ 2)) ^ 2 ∧
  0 < R ^ 2 + (p.a2 + √(z ^ 2 + p.b ^ 2)) ^ 2 ∧ 0 < R ^ 2 + (p.a3 + √(z ^ 2 + p.b ^ 2)) ^ 2

theorem reg_open : AxisOpen (fun R z (_ : ℝ) => Reg p R z) := by
  refine ⟨fun R z φ h => ?_, fun R z φ h => ?_, fun R z φ h => Eventually.of_forall fun _ => h⟩
  · refine (Eventually.of_forall fun _ => h.1).and (Eventually.and ?_ (Eventually.and ?_ ?_))
    · exact ev_pos (f := fun x => x ^ 2 + (p.a1 + √(z ^ 2 + p.b ^ 2)) ^ 2) (by fun_prop) h.2.1
    · exact ev_pos (f := fun x => x ^ 2 + (p.a2 + √(z ^ 2 + p.b ^ 2)) ^ 2) (by fun_prop) h.2.2.1
    · exact ev_pos (f := fun x => x ^ 2 + (p.a3 + √(z ^ 2 + p.b ^ 2)) ^ 2) (by fun_prop) h.2.2.2
  · refine Eventually.and ?_ (Eventually.and ?_ (Eventually.and ?_ ?_))
    · exact ev_pos (f := fun x => x ^ 2 + p.b ^ 2) (by fun_prop) h.1
    · exact ev_pos (f := fun x => R ^ 2 + (p.a1 + √(x ^ 2 + p.b ^ 2)) ^ 2) (by fun_prop) h.2.1
    · exact ev_pos (f := fun x => R ^ 2 + (p.a2 + √(x ^ 2 + p.b ^ 2)) ^ 2) (by fun_prop) h.2.2.1
    · exact ev_pos (f := fun x => R ^ 2 + (p.a3 + √(x ^ 2 + p.b ^ 2)) ^ 2) (by fun_prop) h.2.2.2

theorem pot_eq : pot s p = ((mn1 s p).add (mn2 s p)).add (mn3 s p) := by
  simp only [pot, mn1, mn2, mn3, Pot.add, Pot.scale, Pot.axi, MiyamotoNagai.pot, mul_zero, add_zero]

theorem consistent : Consistent (pot s p) (fun R z _ => Reg p R z) := by
  rw [pot_eq]
  refine .add (reg_open p) (.add (reg_open p) ?_ ?_) ?_
  · exact ((MiyamotoNagai.consistent s p.a1 p.b).scale p.m1).mono fun R z φ h => ⟨h.1, h.2.1⟩
  · exact ((MiyamotoNagai.consistent s p.a2 p.b).scale p.m2).mono fun R z φ h => ⟨h.1, h.2.2.1⟩
  · exact ((MiyamotoNagai.consistent s p.a3 p.b).scale p.m3).mono fun R z φ h => ⟨h.1, h.2.2.2⟩

theorem reg1 {a b R z : ℝ} (hb : 0 < b) (h : 0 < a + b) : 0 < R ^ 2 + (a + √(z ^ 2 + b ^ 2)) ^ 2 := by
  have : b ≤ √(z ^ 2 + b ^ 2) := Real.le_sqrt_of_sq_le (by nlinarith [sq_nonneg z])
  have : 0 < a + √(z ^ 2 + b ^ 2) := by linarith
  positivity

/-- In the range without a warning every disk is regular everywhere. -/
theorem reg {amp hr hz : ℝ} {sech posdens : Bool} {p : Par} (hp : MN3Exponential.init amp hr hz sech posdens = some p) (hhr : 0 < hr)
    (hb : brd hr hz sech ≠ 0) (hin : inRange (brd hr hz sech) posdens) (R z : ℝ) : Reg p R z := by
  unfold MN3Exponential.init at hp
  unfold inRange at hin
  dsimp only at hp
  generalize brd hr hz sech = x at *
  by_cases hx : x < 0
  · simp [hx] at hp
  have hx0 : 0 < x := lt_of_le_of_ne (not_lt.1 hx) (Ne.symm hb)
  rw [if_neg hx] at hp
  cases posdens
  · simp only [Bool.false_eq_true, if_false, Option.some.injEq] at hp
    subst hp
    simp only [true_and, Bool.false_eq_true, false_and, or_false, not_lt, gt_iff_lt] at hin
    have hbb : 0 < x * hr := mul_pos hx0 hhr
    refine ⟨by positivity, reg1 hbb ?_, reg1 hbb ?_, reg1 hbb ?_⟩
    · have : 0 < a1tab1 x + x := by
        unfold a1tab1
        nlinarith [sq_nonneg (x - 2), sq_nonneg (x - 1), mul_pos hx0 hx0, mul_nonneg hx0.le (sub_nonneg.2 hin),
          mul_nonneg (mul_pos hx0 hx0).le (sub_nonneg.2 hin), mul_nonneg (mul_pos hx0 (mul_pos hx0 hx0)).le (sub_nonneg.2 hin), sq_nonneg (x * (x - 2)), sq_nonneg (x * (x - 1)), sq_nonneg (x ^ 2 - 3 * x + 1)]
      simp only; nlinarith
    · have : 0 < a2tab1 x + x := by
        unfold a2tab1
        nlinarith [sq_nonneg (x - 2), sq_nonneg (x - 1), mul_pos hx0 hx0, mul_nonneg hx0.le (sub_nonneg.2 hin),
          mul_nonneg (mul_pos hx0 hx0).le (sub_nonneg.2 hin), mul_nonneg (mul_pos hx0 (mul_pos hx0 hx0)).le (sub_nonneg.2 hin), sq_nonneg (x * (x - 2)), sq_nonneg (x * (x - 1)), sq_nonneg (x ^ 2 - 3 * x + 1)]
      simp only; nlinarith
    · have : 0 < a3tab1 x + x := by
        unfold a3tab1
        nlinarith [sq_nonneg (x - 2), sq_nonneg (x - 1), mul_pos hx0 hx0, mul_nonneg hx0.le (sub_nonneg.2 hin),
          mul_nonneg (mul_pos hx0 hx0).le (sub_nonneg.2 hin), mul_nonneg (mul_pos hx0 (mul_pos hx0 hx0)).le (sub_nonneg.2 hin), sq_nonneg (x * (x - 2)), sq_nonneg (x * (x - 1)), sq_nonneg (x ^ 2 - 3 * x + 1)]
      simp only; nlinarith
  · simp only [if_true, Option.some.injEq] at hp
    subst hp
    simp only [Bool.true_eq_false, false_and, true_and, false_or, not_lt, gt_iff_lt] at hin
    have hbb : 0 < x * hr := mul_pos hx0 hhr
    refine ⟨by positivity, reg1 hbb ?_, reg1 hbb ?_, reg1 hbb ?_⟩
    · have : 0 < a1tab2 x + x := by
        unfold a1tab2
        norm_num at *
        nlinarith [sq_nonneg (x - 1), mul_pos hx0 hx0, mul_nonneg hx0.le (sub_nonneg.2 hin),
          mul_nonneg (mul_pos hx0 hx0).le (sub_nonneg.2 hin), mul_nonneg (mul_pos hx0 (mul_pos hx0 hx0)).le (sub_nonneg.2 hin), sq_nonneg (x * (x - 1))]
      simp only; nlinarith
    · have : 0 < a2tab2 x + x := by
        unfold a2tab2
        norm_num at *
        nlinarith [sq_nonneg (x - 1), mul_pos hx0 hx0, mul_nonneg hx0.le (sub_nonneg.2 hin),
          mul_nonneg (mul_pos hx0 hx0).le (sub_nonneg.2 hin), mul_nonneg (mul_pos hx0 (mul_pos hx0 hx0)).le (sub_nonneg.2 hin), sq_nonneg (x * (x - 1))]
      simp only; nlinarith
    · have : 0 < a3tab2 x + x := by
        unfold a3tab2
        norm_num at *
        nlinarith [sq_nonneg (x - 1), mul_pos hx0 hx0, mul_nonneg hx0.le (sub_nonneg.2 hin),
          mul_nonneg (mul_pos hx0 hx0).le (sub_nonneg.2 hin), mul_nonneg (mul_pos hx0 (mul_pos hx0 hx0)).le (sub_nonneg.2 hin), sq_nonneg (x * (x - 1))]
      simp only; nlinarith
end C01MN3aux
open C01MN3aux

/-- MN3ExponentialDisk, every instance that the constructor accepts without a warning, everywhere. -/
theorem C01_MN3ExponentialDisk (s : Bool) {amp hr hz : ℝ} {sech posdens : Bool} {p : Par}
    (hp : MN3Exponential.init amp hr hz sech posdens = some p) (hhr : 0 < hr) (hb : brd hr hz sech ≠ 0)
    (hin : inRange (brd hr hz sech) posdens) (R z φ t : ℝ) : GradAt ((pot s p).scale p.amp) R z φ t :=
  ((consistent s p).scale p.amp).grad R z φ t (reg hp hhr hb hin R z)

/-- MN3ExponentialDisk, second derivatives. -/
theorem C02_MN3ExponentialDisk (s : Bool) {amp hr hz : ℝ} {sech posdens : Bool} {p : Par}
    (hp : MN3Exponential.init amp hr hz sech posdens = some p) (hhr : 0 < hr) (hb : brd hr hz sech ≠ 0)
    (hin : inRange (brd hr hz sech) posdens) (R z φ t : ℝ) : HessAt ((pot s p).scale p.amp) R z φ t :=
  ((consistent s p).scale p.amp).hess R z φ t (reg hp hhr hb hin R z)

/-- MN3ExponentialDisk, density. -/
theorem C03_MN3ExponentialDisk (s : Bool) {amp hr hz : ℝ} {sech posdens : Bool} {p : Par}
    (hp : MN3Exponential.init amp hr hz sech posdens = some p) (hhr : 0 < hr) (hb : brd hr hz sech ≠ 0)
    (hin : inRange (brd hr hz sech) posdens) {R : ℝ} (hR : R ≠ 0) (z φ t : ℝ) :
    PoissonAt ((pot s p).scale p.amp) R z φ t :=
  ((consistent s p).scale p.amp).poisson R z φ t (reg hp hhr hb hin R z) hR

/-- MN3ExponentialDisk: the three disks that represent it in C compute it. -/
theorem C51_MN3ExponentialDisk (s : Bool) {amp hr hz : ℝ} {sech posdens : Bool} {p : Par}
    (hp : MN3Exponential.init amp hr hz sech posdens = some p) (hhr : 0 < hr) (hb : brd hr hz sech ≠ 0)
    (hin : inRange (brd hr hz sech) posdens) (R z φ t : ℝ) :
    cSum (fun m a b => MiyamotoNagai.cEval m a b R z) p = ((pot s p).scale p.amp).val R z φ t ∧
    cSum (fun m a b => MiyamotoNagai.cRforce m a b R z) p = ((pot s p).scale p.amp).Rforce R z φ t ∧
    cSum (fun m a b => MiyamotoNagai.czforce m a b R z) p = ((pot s p).scale p.amp).zforce R z φ t ∧
    cSum (fun m a b => MiyamotoNagai.cR2deriv m a b R z) p = ((pot s p).scale p.amp).R2deriv R z φ t ∧
    cSum (fun m a b => MiyamotoNagai.cz2deriv m a b R z) p = ((pot s p).scale p.amp).z2deriv R z φ t ∧
    cSum (fun m a b => MiyamotoNagai.cRzderiv m a b R z) p = ((pot s p).scale p.amp).Rzderiv R z φ t ∧
    cSum (fun m a b => MiyamotoNagai.cDens m a b R z) p = ((pot s p).scale p.amp).dens R z φ t := by
  obtain ⟨h0, h1, h2, h3⟩ := reg hp hhr hb hin R z
  refine ⟨?_, ?_, ?_, ?_, ?_, ?_, ?_⟩
  · simp only [cSum, cArgs, List.map_cons, List.map_nil, List.sum_cons, List.sum_nil, MiyamotoNagai.cEval_eq _ h1,
      MiyamotoNagai.cEval_eq _ h2, MiyamotoNagai.cEval_eq _ h3, pot, mn1, mn2, mn3, Pot.scale, Pot.axi, MiyamotoNagai.pot]
    ring
  · simp only [cSum, cArgs, List.map_cons, List.map_nil, List.sum_cons, List.sum_nil, MiyamotoNagai.cRforce_eq _ h1,
      MiyamotoNagai.cRforce_eq _ h2, MiyamotoNagai.cRforce_eq _ h3, pot, mn1, mn2, mn3, Pot.scale, Pot.axi, MiyamotoNagai.pot]
    ring
  · simp only [cSum, cArgs, List.map_cons, List.map_nil, List.sum_cons, List.sum_nil, MiyamotoNagai.czforce_eq (s := s) _ h0 h1,
      MiyamotoNagai.czforce_eq (s := s) _ h0 h2, MiyamotoNagai.czforce_eq (s := s) _ h0 h3, pot, mn1, mn2, mn3, Pot.scale,
      Pot.axi, MiyamotoNagai.pot]
    ring
  · simp only [cSum, cArgs, List.map_cons, List.map_nil, List.sum_cons, List.sum_nil, MiyamotoNagai.cR2deriv_eq _ h1,
      MiyamotoNagai.cR2deriv_eq _ h2, MiyamotoNagai.cR2deriv_eq _ h3, pot, mn1, mn2, mn3, Pot.scale, Pot.axi, MiyamotoNagai.pot]
    ring
  · simp only [cSum, cArgs, List.map_cons, List.map_nil, List.sum_cons, List.sum_nil, MiyamotoNagai.cz2deriv_eq (s := s) _ h0 h1,
      MiyamotoNagai.cz2deriv_eq (s := s) _ h0 h2, MiyamotoNagai.cz2deriv_eq (s := s) _ h0 h3, pot, mn1, mn2, mn3,
      Pot.scale, Pot.axi, MiyamotoNagai.pot]
    ring
  · simp only [cSum, cArgs, List.map_cons, List.map_nil, List.sum_cons, List.sum_nil, MiyamotoNagai.cRzderiv_eq (s := s) _ h0 h1,
      MiyamotoNagai.cRzderiv_eq (s := s) _ h0 h2, MiyamotoNagai.cRzderiv_eq (s := s) _ h0 h3, pot, mn1, mn2, mn3,
      Pot.scale, Pot.axi, MiyamotoNagai.pot]
    ring
  · simp only [cSum, cArgs, List.map_cons, List.map_nil, List.sum_cons, List.sum_nil, MiyamotoNagai.cDens_eq (s := s) _ h0 h1,
      MiyamotoNagai.cDens_eq (s := s) _ h0 h2, MiyamotoNagai.cDens_eq (s := s) _ h0 h3, pot, mn1, mn2, mn3, Pot.scale,
      Pot.axi, MiyamotoNagai.pot]
    ring

namespace C01MN3aux
/-- An instance: unit scale length, scale height 1/2. -/
theorem ex : ∃ p, MN3Exponential.init 1 1 (1 / 2) false false = some p ∧ (0 : ℝ) < 1 ∧ brd 1 (1 / 2) false ≠ 0 ∧
    inRange (brd 1 (1 / 2) false) false := by
  have h : brd 1 (1 / 2) false = 782375 / 1000000 := by norm_num [brd, bExphz]
  have hs : (MN3Exponential.init 1 1 (1 / 2) false false).isSome = true := by
    unfold MN3Exponential.init
    rw [h]
    norm_num
  obtain ⟨p, hp⟩ := Option.isSome_iff_exists.1 hs
  exact ⟨p, hp, one_pos, by rw [h]; norm_num, by rw [h]; norm_num [inRange]⟩
end C01MN3aux
example : ∃ p, GradAt ((pot true p).scale p.amp) 1 0 0 0 ∧ HessAt ((pot true p).scale p.amp) 1 0 0 0 ∧
    PoissonAt ((pot true p).scale p.amp) 1 0 0 0 ∧
    cSum (fun m a b => MiyamotoNagai.cEval m a b 1 0) p = ((pot true p).scale p.amp).val 1 0 0 0 := by
  obtain ⟨p, h1, h2, h3, h4⟩ := C01MN3aux.ex
  exact ⟨p, C01_MN3ExponentialDisk _ h1 h2 h3 h4 _ _ _ _, C02_MN3ExponentialDisk _ h1 h2 h3 h4 _ _ _ _,
    C03_MN3ExponentialDisk _ h1 h2 h3 h4 one_ne_zero _ _ _, (C51_MN3ExponentialDisk _ h1 h2 h3 h4 _ _ _ _).1⟩

end Verif
