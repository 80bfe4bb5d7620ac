import Verif.Lemmas.Pot.EllipsoidalMass
import Verif.Lemmas.Pot.TwoPowerTriaxial
import Verif.Lemmas.Pot.Ops
import Verif.Props.C55

set_option autoImplicit false

/-!
# C01, C02, C03, C51, C62, C71 for the ellipsoidal potentials

PerfectEllipsoid, TwoPowerTriaxial with inner slope at most 2, TriaxialHernquist, TriaxialJaffe, TriaxialNFW, PowerTriaxial, TriaxialGaussian, with Gauss-Legendre
quadrature of any order or with adaptive quadrature (as exact integrals), aligned or rotated. With Gauss-Legendre
quadrature forces and second derivatives are the exact derivatives of the quadrature sum.
-/

noncomputable section
namespace Verif
open Ellipsoidal

namespace C01aux

/-- The classes, with the values of their parameters for which they are defined: the Python functions and the C ones. -/
inductive Ell : Profile → Profile → Prop
  | perfect {a : ℝ} (ha : a ≠ 0) : Ell (perfect a) (cPerfect a)
  | hernquist {a : ℝ} (ha : 0 < a) : Ell (hernquist a) (cHernquist a)
  | jaffe {a : ℝ} (ha : 0 < a) : Ell (jaffe a) (cJaffe a)
  | nfw {a : ℝ} (ha : 0 < a) : Ell (nfw a) (cNfw a)
  | power {α : ℝ} (h2 : α ≠ 2) (h3 : α < 3) : Ell (power α) (cPower α)
  | gaussian {σ : ℝ} (h : σ ≠ 0) : Ell (gaussian σ) (cGaussian σ)
  | twoPower {a α β : ℝ} (ha : 0 < a) (h : α = 2 ∨ α ≤ 2 - 1e-10) (hβ : 2 < β) : Ell (twoPower a α β) (cTwoPower a α β)

theorem Ell.ok {P C : Profile} (h : Ell P C) : P.OK := by
  cases h with
  | perfect h => exact perfect_ok h
  | hernquist h => exact hernquist_ok h
  | jaffe h => exact jaffe_ok h
  | nfw h => exact nfw_ok h
  | power h _ => exact power_ok h
  | gaussian h => exact gaussian_ok h
  | twoPower ha h hβ => exact twoPower_ok ha (h.imp id fun h => h.trans_lt (by norm_num)) hβ
theorem Ell.mild {P C : Profile} (h : Ell P C) : P.Mild := by
  cases h with
  | perfect h => exact perfect_mild h
  | hernquist h => exact hernquist_mild h
  | jaffe h => exact jaffe_mild h
  | nfw h => exact nfw_mild h
  | power _ h => exact power_mild h
  | gaussian => exact gaussian_mild _
  | twoPower ha h hβ => exact twoPower_mild ha (h.imp id fun h => h.trans_lt (by norm_num)) hβ
theorem Ell.same {P C : Profile} (h : Ell P C) : C.Same P := by
  cases h with
  | perfect => exact perfect_same _
  | hernquist => exact hernquist_same _
  | jaffe h => exact jaffe_same h
  | nfw h => exact nfw_same h
  | power => exact power_same _
  | gaussian => exact gaussian_same _
  | twoPower ha h =>
    exact twoPower_same ha (h.imp id fun h => le_abs.2 (Or.inl (by linarith)))

/-- Gauss-Legendre nodes and weights on `(-1, 1)`, as `numpy` returns them; `none` for `glorder=None`. -/
def Legendre (leg : Option (List (ℝ × ℝ))) : Prop := ∀ l ∈ leg, ∀ n ∈ l, -1 < n.1 ∧ n.1 < 1

theorem good {P C : Profile} (h : Ell P C) {b c : ℝ} (hb : 0 < b) (hc : 0 < c) {leg : Option (List (ℝ × ℝ))}
    (hl : Legendre leg) (rot : Option Tilt.Mat) : Par.Good ⟨b, c, P, rot, leg.map setupGl⟩ := by
  refine ⟨hb, hc, ?_, h.ok, fun _ => h.mild⟩
  intro l hl' n hn
  obtain ⟨k, hk, rfl⟩ := Option.map_eq_some_iff.1 hl'
  simp only [setupGl, List.mem_map] at hn
  obtain ⟨n', hn', rfl⟩ := hn
  have := hl k hk n' hn'
  simp only
  constructor <;> norm_num <;> linarith [this.1, this.2]

/-- The direction of the axis can be normalised. -/
def AxisOK (zvec : Option Tilt.ZVec) : Prop := ∀ v a, zvec = some (.floats v a) → v ≠ 0

theorem setup_orth {zvec : Option Tilt.ZVec} (hz : AxisOK zvec) {pa : Option ℝ} {M : Tilt.Mat}
    (h : setupRot zvec pa = .ok (some M)) : M * M.transpose = 1 := by
  unfold setupRot at h
  split_ifs at h with h1
  · simp at h
  cases zvec with
  | none =>
    simp only [Tilt.zvecRot, Except.ok.injEq, Option.some.injEq] at h
    subst h
    rw [mul_one]
    exact (C55aux.paRot pa).1
  | some v =>
    cases v with
    | ints => simp [Tilt.zvecRot] at h
    | floats v a =>
      obtain ⟨T, hT, ho⟩ := C55aux.zvecRot (hz v a rfl) a
      rw [hT] at h
      simp only [Except.ok.injEq, Option.some.injEq] at h
      subst h
      exact C55aux.orth_mul (C55aux.paRot pa).1 ho

theorem off {R z : ℝ} (φ : ℝ) (h : R ≠ 0 ∨ z ≠ 0) : Off (R * Real.cos φ) (R * Real.sin φ) z := by
  unfold Off
  have e : (R * Real.cos φ) ^ 2 + (R * Real.sin φ) ^ 2 = R ^ 2 := by
    linear_combination R ^ 2 * Real.cos_sq_add_sin_sq φ
  rw [e]
  rcases h with h | h <;> positivity

theorem off_rot {M : Tilt.Mat} (hM : M * M.transpose = 1) {x y z : ℝ} (h : Off x y z) :
    Off (M.mulVec ![x, y, z] 0) (M.mulVec ![x, y, z] 1) (M.mulVec ![x, y, z] 2) := by
  have h' : M.transpose * M = 1 := mul_eq_one_comm.1 hM
  have e : ∀ i j, ∑ k, M k i * M k j = if i = j then 1 else 0 := by
    intro i j
    have := congrFun (congrFun h' i) j
    simpa [Matrix.mul_apply, Matrix.one_apply] using this
  have e00 := e 0 0
  have e11 := e 1 1
  have e22 := e 2 2
  have e01 := e 0 1
  have e02 := e 0 2
  have e12 := e 1 2
  simp [Fin.sum_univ_three] at e00 e11 e22 e01 e02 e12
  unfold Off at *
  simp only [Matrix.mulVec, dotProduct, Fin.sum_univ_three, Matrix.cons_val_zero, Matrix.cons_val_one, Matrix.cons_val]
  have : (M 0 0 * x + M 0 1 * y + M 0 2 * z) ^ 2 + (M 1 0 * x + M 1 1 * y + M 1 2 * z) ^ 2
      + (M 2 0 * x + M 2 1 * y + M 2 2 * z) ^ 2 = x ^ 2 + y ^ 2 + z ^ 2 := by
    linear_combination x ^ 2 * e00 + y ^ 2 * e11 + z ^ 2 * e22 + 2 * x * y * e01 + 2 * x * z * e02 + 2 * y * z * e12
  rw [this]
  exact h

theorem leg_none : Legendre none := fun _ h => by cases h
theorem leg_two : Legendre (some [(-1/2, 1), (1/2, 1)]) := by
  intro l hl n hn
  obtain rfl : l = _ := (Option.mem_some_iff.1 hl).symm
  rcases List.mem_pair.1 hn with rfl | rfl <;> norm_num
theorem zvec_ok : AxisOK (some (.floats ![1, 0, 1] true)) := by
  intro v a h
  simp only [Option.some.injEq, Tilt.ZVec.floats.injEq] at h
  obtain ⟨rfl, -⟩ := h
  intro h0
  simpa using congrFun h0 0

end C01aux
open C01aux

/-- Forces, with any quadrature and orientation. The flag `hax` says that `b` is `1` or differs from it by more than
the tolerance of the code, or the frame is rotated. -/
theorem C01_Ellipsoidal {P C : Profile} (h : Ell P C) {b c : ℝ} (hb : 0 < b) (hc : 0 < c) {leg : Option (List (ℝ × ℝ))}
    (hl : Legendre leg) {zvec : Option Tilt.ZVec} (hz : AxisOK zvec) {pa : Option ℝ} {rot : Option Tilt.Mat}
    (hr : setupRot zvec pa = .ok rot) (hax : rot = none → b = 1 ∨ |b - 1| > 1e-10) (amp R z φ t : ℝ)
    (h0 : R ≠ 0 ∨ z ≠ 0) :
    GradAt ((Ellipsoidal.pot ⟨b, c, P, rot, leg.map setupGl⟩).scale amp) R z φ t := by
  have hg := good h hb hc hl rot
  refine GradAt.scale amp ?_
  cases rot with
  | none =>
    refine (polar hg rfl ((hax rfl).imp id Or.inr) t).grad (Ellipsoidal.cart hg) ?_
    rw [sub_zero]
    exact off φ h0
  | some M => exact grad_rot hg rfl t (off_rot (setup_orth hz hr) (off φ h0))
example : GradAt ((Ellipsoidal.pot ⟨4/5, 1/2, nfw 2, none, none⟩).scale 3) 1 0 0 0 :=
  C01_Ellipsoidal (leg := none) (zvec := none) (pa := none) (.nfw (by norm_num)) (by norm_num) (by norm_num) leg_none
    (fun _ _ h => by cases h) (by simp [setupRot]) (fun _ => Or.inr (by norm_num [abs_of_neg])) 3 1 0 0 0 (Or.inl one_ne_zero)
example : ∃ M, GradAt ((Ellipsoidal.pot ⟨4/5, 1/2, nfw 2, some M, some (setupGl [(-1/2, 1), (1/2, 1)])⟩).scale 3) 1 0 0 0 :=
  ⟨_, C01_Ellipsoidal (leg := some [(-1/2, 1), (1/2, 1)]) (zvec := some (.floats ![1, 0, 1] true)) (pa := some 1)
    (.nfw (by norm_num)) (by norm_num) (by norm_num) leg_two zvec_ok
    (by simp [setupRot, Tilt.zvecRot]; rfl) (fun h => by cases h) 3 1 0 0 0 (Or.inl one_ne_zero)⟩

example : GradAt ((Ellipsoidal.pot ⟨4/5, 1/2, twoPower 2 (1/2) (7/2), none, none⟩).scale 3) 1 0 0 0 :=
  C01_Ellipsoidal (leg := none) (zvec := none) (pa := none) (.twoPower two_pos (Or.inr (by norm_num)) (by norm_num))
    (by norm_num) (by norm_num) leg_none (fun _ _ h => by cases h) (by simp [setupRot])
    (fun _ => Or.inr (by norm_num [abs_of_neg])) 3 1 0 0 0 (Or.inl one_ne_zero)

/-- Second derivatives; in a rotated frame the code raises (`C71_Ellipsoidal`). -/
theorem C02_Ellipsoidal {P C : Profile} (h : Ell P C) {b c : ℝ} (hb : 0 < b) (hc : 0 < c) {leg : Option (List (ℝ × ℝ))}
    (hl : Legendre leg) (hax : b = 1 ∨ |b - 1| > 1e-10) (amp R z φ t : ℝ) (h0 : R ≠ 0 ∨ z ≠ 0) :
    HessAt ((Ellipsoidal.pot ⟨b, c, P, none, leg.map setupGl⟩).scale amp) R z φ t := by
  have hg := good h hb hc hl none
  refine HessAt.scale amp ?_
  refine (polar hg rfl (hax.imp id Or.inr) t).hess (Ellipsoidal.cart hg) ?_
  rw [sub_zero]
  exact off φ h0
example : HessAt ((Ellipsoidal.pot ⟨4/5, 1/2, jaffe 2, none, some (setupGl [(-1/2, 1), (1/2, 1)])⟩).scale 3) 1 0 0 0 :=
  C02_Ellipsoidal (leg := some [(-1/2, 1), (1/2, 1)]) (.jaffe (by norm_num)) (by norm_num) (by norm_num) leg_two
    (Or.inr (by norm_num [abs_of_neg])) 3 1 0 0 0 (Or.inl one_ne_zero)

/-- Poisson's equation with adaptive quadrature; the Gauss-Legendre sums satisfy it only up to the quadrature error. -/
theorem C03_Ellipsoidal {P C : Profile} (h : Ell P C) {b c : ℝ} (hb : 0 < b) (hc : 0 < c)
    (hax : b = 1 ∨ |b - 1| > 1e-10) (amp R z φ t : ℝ) (hR : R ≠ 0) :
    PoissonAt ((Ellipsoidal.pot ⟨b, c, P, none, none⟩).scale amp) R z φ t := by
  have hg := good h hb hc leg_none none
  have ho := off (z := z) φ (Or.inl hR)
  refine PoissonAt.scale amp ?_
  refine (polar hg rfl (hax.imp id Or.inr) t).poisson (Ellipsoidal.cart hg) ?_ hR ?_
  · rw [sub_zero]; exact ho
  · rw [sub_zero]
    exact (Ellipsoidal.poisson hg rfl ho).symm
example : PoissonAt ((Ellipsoidal.pot ⟨4/5, 1/2, hernquist 2, none, none⟩).scale 3) 1 1 0 0 :=
  C03_Ellipsoidal (.hernquist (by norm_num)) (by norm_num) (by norm_num) (Or.inr (by norm_num [abs_of_neg])) 3 1 1 0 0 one_ne_zero

/-- The C functions, called in any order on the memory that Python packs (all zeros), return the Python methods of the
same quadrature, for forces in any orientation and for second derivatives in the aligned frame away from the centre; the
planar functions are the same ones called with `z = 0`. Values and densities agree everywhere. -/
theorem C51_Ellipsoidal {P C : Profile} (h : Ell P C) {b c : ℝ} {l : List (ℝ × ℝ)} {rot : Option Tilt.Mat}
    (hax : rot = none → b = 1 ∨ |b - 1| > 1e-10) (amp : ℝ) (k : List (Method × ℝ × ℝ × ℝ))
    (hk : ∀ d ∈ k, d.1.isForce ∨ (rot = none ∧ (d.2.1 ≠ 0 ∨ d.2.2.1 ≠ 0))) :
    Ellipsoidal.cCalls ⟨b, c, P, rot, some l⟩ C l amp {} k
      = k.map (fun d => d.1.get ((Ellipsoidal.pot ⟨b, c, P, rot, some l⟩).scale amp) d.2.1 d.2.2.1 d.2.2.2)
    ∧ ∀ R z φ t, Ellipsoidal.cEval ⟨b, c, P, rot, some l⟩ C l amp R z φ
        = ((Ellipsoidal.pot ⟨b, c, P, rot, some l⟩).scale amp).val R z φ t
      ∧ Ellipsoidal.cDens ⟨b, c, P, rot, some l⟩ C amp R z φ
        = ((Ellipsoidal.pot ⟨b, c, P, rot, some l⟩).scale amp).dens R z φ t := by
  have hn : (⟨b, c, P, rot, some l⟩ : Par).b = 1 ∨ (⟨b, c, P, rot, some l⟩ : Par).isNonAxi := by
    by_cases hr : rot = none
    · exact (hax hr).imp id Or.inr
    · exact Or.inr (Or.inl hr)
  constructor
  · rw [cCalls_eq rfl h.same hn amp k (initial_valid _) hk]
    refine List.map_congr_left fun d _ => ?_
    obtain ⟨m, R, z, φ⟩ := d
    cases m <;> rfl
  · exact fun R z φ t => ⟨cEval_eq rfl h.same hn amp R z φ t, cDens_eq h.same amp R z φ t⟩
example : Ellipsoidal.cCalls ⟨1, 1/2, power 1, none, some [(1/2, 1)]⟩ (cPower 1) [(1/2, 1)] 3 {}
      [(.zforce, 1, 0, 0), (.R2deriv, 1, 0, 0), (.zforce, 2, 0, 0)]
    = [((Ellipsoidal.pot ⟨1, 1/2, power 1, none, some [(1/2, 1)]⟩).scale 3).zforce 1 0 0 0,
      ((Ellipsoidal.pot ⟨1, 1/2, power 1, none, some [(1/2, 1)]⟩).scale 3).R2deriv 1 0 0 0,
      ((Ellipsoidal.pot ⟨1, 1/2, power 1, none, some [(1/2, 1)]⟩).scale 3).zforce 2 0 0 0] :=
  (C51_Ellipsoidal (.power (by norm_num) (by norm_num)) (fun _ => Or.inl rfl) 3 _ (by
    intro d hd
    fin_cases hd
    · exact Or.inl rfl
    · exact Or.inr ⟨rfl, Or.inl one_ne_zero⟩
    · exact Or.inl rfl)).1

/-- At the centre the C second derivatives are those of the initial memory, zero, because its zeros are taken for a
remembered evaluation at the centre. Here, a spherical perfect ellipsoid with one node: Python has `π`, which is minus
the derivative of the vertical force, C has `0`. -/
theorem C51_Ellipsoidal_fails :
    Ellipsoidal.cCalls ⟨1, 1, perfect 1, none, some [(1/2, 1)]⟩ (cPerfect 1) [(1/2, 1)] 1 {} [(.z2deriv, 0, 0, 0)] = [0]
    ∧ (Ellipsoidal.pot ⟨1, 1, perfect 1, none, some [(1/2, 1)]⟩).z2deriv 0 0 0 0 = Real.pi
    ∧ HasDerivAt (fun z => (Ellipsoidal.pot ⟨1, 1, perfect 1, none, some [(1/2, 1)]⟩).zforce 0 z 0 0) (-Real.pi) 0 := by
  have e4 : (√4 : ℝ) = 2 := by
    rw [show (4 : ℝ) = 2 ^ 2 by norm_num]; exact Real.sqrt_sq (by norm_num)
  refine ⟨?_, ?_, ?_⟩
  · simp [Ellipsoidal.cCalls, Ellipsoidal.cCall, Ellipsoidal.cGetHess]
  · simp only [Ellipsoidal.pot, Ellipsoidal.xyzhess, Ellipsoidal.hessIntAll, toFrame, Coords.cyl_to_rect, perfect, Par.b2, Par.c2]
    norm_num
    try ring
  · have e : (fun z => (Ellipsoidal.pot ⟨1, 1, perfect 1, none, some [(1/2, 1)]⟩).zforce 0 z 0 0)
        = fun z : ℝ => -Real.pi * (z * ((1 + z ^ 2 / 4) ^ 2)⁻¹) := by
      funext z
      simp only [Ellipsoidal.pot, zforceOf, fromFrame, Ellipsoidal.xyzforces, Ellipsoidal.forceIntAll, toFrame, Coords.cyl_to_rect,
        perfect, Par.b2, Par.c2]
      norm_num
      rw [mul_pow, e4, Real.sq_sqrt (sq_nonneg z)]
      ring_nf
    rw [e]
    have hd : HasDerivAt (fun z : ℝ => (1 + z ^ 2 / 4) ^ 2) 0 0 := by
      have := ((((hasDerivAt_pow 2 (0:ℝ)).div_const 4).const_add 1).fun_pow 2)
      simpa using this
    have := ((hasDerivAt_id (0:ℝ)).fun_mul (hd.fun_inv (by norm_num))).const_mul (-Real.pi)
    simpa using this

/-- Whatever was evaluated before on the same object, every method returns the value at the requested point, or raises
`NotImplementedError` for a second derivative in a rotated frame. -/
theorem C71_Ellipsoidal (p : Par) (l : List (Method × ℝ × ℝ × ℝ)) :
    Ellipsoidal.calls p {} l = l.map fun c =>
      if c.1.isForce ∨ p.rot = none then .ok (c.1.get (Ellipsoidal.pot p) c.2.1 c.2.2.1 c.2.2.2) else .error .notImplemented :=
  Ellipsoidal.calls_eq l ⟨by simp, by simp⟩
example : Ellipsoidal.calls ⟨1, 1/2, power 1, none, none⟩ {} [(.Rforce, 1, 0, 0), (.R2deriv, 1, 0, 3), (.Rforce, 1, 0, 3)]
    = [.ok ((Ellipsoidal.pot ⟨1, 1/2, power 1, none, none⟩).Rforce 1 0 0 0),
      .ok ((Ellipsoidal.pot ⟨1, 1/2, power 1, none, none⟩).R2deriv 1 0 3 0),
      .ok ((Ellipsoidal.pot ⟨1, 1/2, power 1, none, none⟩).Rforce 1 0 3 0)] := by
  rw [C71_Ellipsoidal]
  simp [Method.get]

/-! ### Masses -/

theorem C62aux.ell {b c : ℝ} (hb : 0 < b) (hc : 0 < c) {ρ m M : ℝ → ℝ} (h : EnclosedMass ρ m)
    (e : ∀ R, M R = b * c * m R) : EllipsoidMass b c ρ M := by
  rw [funext e]
  exact EllipsoidMass.of_shell hb hc h

/-- `mass(R)` is the volume integral of the density over the ellipsoid of semi-major axis `R`. -/
theorem C62_Ellipsoidal {b c : ℝ} (hb : 0 < b) (hc : 0 < c) :
    (∀ a, 0 < a → EllipsoidMass b c (hernquist a).mdens (massHernquist a b c))
    ∧ (∀ a, 0 < a → EllipsoidMass b c (jaffe a).mdens (massJaffe a b c))
    ∧ (∀ a, 0 < a → EllipsoidMass b c (nfw a).mdens (massNfw a b c))
    ∧ (∀ σ, 0 < σ → EllipsoidMass b c (gaussian σ).mdens (massGaussian σ b c))
    ∧ ∀ α, α < 3 → ∀ rot gl, EllipsoidMass b c (power α).mdens (Ellipsoidal.mass ⟨b, c, power α, rot, gl⟩) := by
  refine ⟨fun a ha => C62aux.ell hb hc (shell_hernquist ha) fun R => ?_,
    fun a ha => C62aux.ell hb hc (shell_jaffe ha) fun R => ?_,
    fun a ha => C62aux.ell hb hc (shell_nfw ha) fun R => ?_,
    fun σ hσ => C62aux.ell hb hc (shell_gaussian hσ) fun R => ?_,
    fun α hα rot gl => C62aux.ell hb hc (shell_int fun R hR => power_int hα hR) fun R => ?_⟩
  · simp only [massHernquist]; ring
  · simp only [massJaffe]; ring
  · simp only [massNfw]; ring
  · simp only [massGaussian]; ring
  · simp only [Ellipsoidal.mass]; ring
example : EllipsoidMass (4/5) (1/2) (nfw 2).mdens (massNfw 2 (4/5) (1/2)) :=
  (C62_Ellipsoidal (by norm_num) (by norm_num)).2.2.1 2 (by norm_num)

/-- TwoPowerTriaxial, for every inner slope below 3. -/
theorem C62_TwoPowerTriaxial {a α b c : ℝ} (ha : 0 < a) (h : α < 3) (β : ℝ) (hb : 0 < b) (hc : 0 < c) :
    EllipsoidMass b c (twoPower a α β).mdens (massTwoPower a α β b c) := by
  intro R hR
  obtain ⟨h1, h2⟩ := EllipsoidMass.of_shell hb hc (shell_twoPower (β := β) ha h) R hR
  refine ⟨h1, h2.trans ?_⟩
  have h3 : 3 - α ≠ 0 := by linarith
  have k1 : R ^ (3 - α) * R ^ (α - 3) = 1 := by rw [← Real.rpow_add hR]; simp
  have k2 : a ^ α * a ^ (3 - α) = a ^ 3 := by
    rw [← Real.rpow_add ha, ← Real.rpow_natCast a 3]; congr 1; push_cast; ring
  rw [massTwoPower, TwoPower.hyper_eq β ha hR h]
  field_simp
  linear_combination (-TwoPower.mG a α β R) * (k2 + a ^ α * a ^ (3 - α) * k1)
example : EllipsoidMass (4/5) (1/2) (twoPower 2 (5/2) 4).mdens (massTwoPower 2 (5/2) 4 (4/5) (1/2)) :=
  C62_TwoPowerTriaxial two_pos (by norm_num) 4 (by norm_num) (by norm_num)

/-- PerfectEllipsoid with `a = 1`. -/
theorem C62_PerfectEllipsoid_partial {b c : ℝ} (hb : 0 < b) (hc : 0 < c) :
    EllipsoidMass b c (perfect 1).mdens (massPerfect 1 b c) :=
  C62aux.ell hb hc (shell_perfect one_pos) fun R => by simp only [massPerfect]; norm_num; ring
example : EllipsoidMass (4/5) (1/2) (perfect 1).mdens (massPerfect 1 (4/5) (1/2)) :=
  C62_PerfectEllipsoid_partial (by norm_num) (by norm_num)

/-- PerfectEllipsoid with any other `a`: `_mass` has `1 + R²` where the integral has `a² + R²`, so that it is the mass
of no ellipsoid at all. -/
theorem C62_PerfectEllipsoid_fails {a b c : ℝ} (ha : 0 < a) (h1 : a ≠ 1) (hb : 0 < b) (hc : 0 < c) {R : ℝ} (hR : 0 < R) :
    ∫ q in {q | ellRadius b c q < R}, (perfect a).mdens (ellRadius b c q) ≠ massPerfect a b c R := by
  rw [(EllipsoidMass.of_shell hb hc (shell_perfect ha) R hR).2]
  intro e
  simp only [massPerfect] at e
  have e1 : b * c * (2 * Real.pi / a) * (R * a / (a ^ 2 + R ^ 2) - R * a / (1 + R ^ 2)) = 0 := by
    linear_combination -e
  have hp := Real.pi_pos
  have e2 := (mul_eq_zero.1 e1).resolve_left (by positivity)
  have h2 : a ^ 2 + R ^ 2 ≠ 0 := by positivity
  have h3 : 1 + R ^ 2 ≠ 0 := by positivity
  rw [sub_eq_zero, div_eq_div_iff h2 h3] at e2
  have e3 := mul_left_cancel₀ (by positivity) e2
  have e4 : (a - 1) * (a + 1) = 0 := by linear_combination -e3
  rcases mul_eq_zero.1 e4 with e5 | e5
  · exact h1 (by linarith)
  · linarith

end Verif
