import Verif.Model.Tilt
import Verif.Lemmas.EOM
import Verif.Lemmas.Coords
import Verif.Props.C12
import Verif.Props.C21
import Mathlib.Analysis.SpecialFunctions.Complex.LogDeriv
import Mathlib.Analysis.SpecialFunctions.Sqrt

set_option autoImplicit false

/-!
# Lemmas about the rotated and shifted potential
-/

open Filter Topology

namespace Verif

/-- The second-derivative methods at two azimuths of the same point agree. -/
theorem SmoothOn.turn {P : Pot} {D : Set (ℝ × ℝ × ℝ)} (hP : SmoothOn P D) (hper : Periodic P)
    {R z φ φ' t : ℝ} (h : (R, z, φ) ∈ D) (h' : (R, z, φ') ∈ D) (hc : Real.cos φ = Real.cos φ')
    (hs : Real.sin φ = Real.sin φ') :
    P.R2deriv R z φ t = P.R2deriv R z φ' t ∧ P.z2deriv R z φ t = P.z2deriv R z φ' t ∧
    P.Rzderiv R z φ t = P.Rzderiv R z φ' t ∧ P.phi2deriv R z φ t = P.phi2deriv R z φ' t ∧
    P.Rphideriv R z φ t = P.Rphideriv R z φ' t ∧ P.phizderiv R z φ t = P.phizderiv R z φ' t := by
  have k := hP.forceHess (t := t) h
  have k' := hP.forceHess (t := t) h'
  have eR : ∀ a b, P.Rforce a b φ t = P.Rforce a b φ' t := fun a b =>
    periodic_eq (f := fun x => P.Rforce a b x t) (fun x => hper.Rforce a b x t) hc hs
  have ez : ∀ a b, P.zforce a b φ t = P.zforce a b φ' t := fun a b =>
    periodic_eq (f := fun x => P.zforce a b x t) (fun x => hper.zforce a b x t) hc hs
  have ep : ∀ a b, P.phitorque a b φ t = P.phitorque a b φ' t := fun a b =>
    periodic_eq (f := fun x => P.phitorque a b x t) (fun x => hper.phitorque a b x t) hc hs
  have RR := k.RR
  have zz := k.zz
  have Rz := k.Rz
  have pR := k.pR
  have pz := k.pz
  simp only [eR, ez, ep] at RR zz Rz pR pz
  refine ⟨neg_injective (RR.unique k'.RR), neg_injective (zz.unique k'.zz), neg_injective (Rz.unique k'.Rz), ?_,
    neg_injective (pR.unique k'.pR), neg_injective (pz.unique k'.pz)⟩
  obtain ⟨n, hn⟩ := angle_eq hc hs
  have e : (fun x => P.phitorque R z x t) = fun x => P.phitorque R z (x + n * (2 * Real.pi)) t := by
    funext x
    refine periodic_eq (f := fun x => P.phitorque R z x t) (fun x => hper.phitorque R z x t) ?_ ?_
    · rw [Real.cos_add_int_mul_two_pi]
    · rw [Real.sin_add_int_mul_two_pi]
  have h2 : HasDerivAt (fun x => P.phitorque R z (x + n * (2 * Real.pi)) t) (-P.phi2deriv R z φ t) φ' :=
    HasDerivAt.comp_add_const (f := fun x => P.phitorque R z x t) φ' (n * (2 * Real.pi)) (by rw [← hn]; exact k.pp)
  rw [← e] at h2
  exact neg_injective (h2.unique k'.pp)

namespace Tilt

/-- What every successful `__init__` gives, see `C55_inverse`. -/
structure Orth (W : Wrapper) : Prop where
  orth : W.rot * W.rot.transpose = 1
  inv : W.invRot = W.rot.transpose
  norot : W.norot = true ↔ W.rot = 1

/-- The shift as a vector. -/
noncomputable def shift (W : Wrapper) : Vec := W.offset.getD 0

theorem point_eq {W : Wrapper} (hW : Orth W) (R z φ : ℝ) (i : Fin 3) :
    point W R z φ i = W.rot i 0 * (R * Real.cos φ) + W.rot i 1 * (R * Real.sin φ) + W.rot i 2 * z + shift W i := by
  have key : (if W.norot then (![R * Real.cos φ, R * Real.sin φ, z] : Vec)
      else W.rot.mulVec ![R * Real.cos φ, R * Real.sin φ, z]) i =
      W.rot i 0 * (R * Real.cos φ) + W.rot i 1 * (R * Real.sin φ) + W.rot i 2 * z := by
    by_cases h : W.norot = true
    · rw [if_pos h, hW.norot.1 h]
      obtain rfl | rfl | rfl : i = 0 ∨ i = 1 ∨ i = 2 := by fin_cases i <;> simp
      all_goals simp
    · rw [if_neg h, Coords.mulVec3]
      simp
  cases ho : W.offset with
  | none =>
    simp only [point, ho, Coords.cyl_to_rect, shift, Option.getD_none, Pi.zero_apply, add_zero]
    exact key
  | some o =>
    simp only [point, ho, Coords.cyl_to_rect, shift, Option.getD_some]
    rw [key]

theorem atan2_azimuth {x y : ℝ} (h : 0 < x ^ 2 + y ^ 2) :
    Real.cos (Coords.atan2 y x) = Real.cos (EOM.azimuth x y) ∧
    Real.sin (Coords.atan2 y x) = Real.sin (EOM.azimuth x y) := by
  obtain ⟨hR, ex, ey⟩ := EOM.azimuth_spec h
  constructor
  · refine mul_left_cancel₀ hR.ne' ?_
    rw [Coords.polar_cos]; exact ex
  · refine mul_left_cancel₀ hR.ne' ?_
    rw [Coords.polar_sin]; exact ey

theorem forceP_eq {P : Pot} (hper : Periodic P) (t : ℝ) {x : Vec} (h0 : 0 < x 0 ^ 2 + x 1 ^ 2) :
    forceP P x t = EOM.rectForce P t x := by
  obtain ⟨hc, hs⟩ := atan2_azimuth h0
  obtain ⟨ac, as⟩ := EOM.azimuth_cos_sin h0
  have eR : ∀ a b, P.Rforce a b (Coords.atan2 (x 1) (x 0)) t = P.Rforce a b (EOM.azimuth (x 0) (x 1)) t := fun a b =>
    periodic_eq (f := fun x => P.Rforce a b x t) (fun x => hper.Rforce a b x t) hc hs
  have ez : ∀ a b, P.zforce a b (Coords.atan2 (x 1) (x 0)) t = P.zforce a b (EOM.azimuth (x 0) (x 1)) t := fun a b =>
    periodic_eq (f := fun x => P.zforce a b x t) (fun x => hper.zforce a b x t) hc hs
  have ep : ∀ a b, P.phitorque a b (Coords.atan2 (x 1) (x 0)) t = P.phitorque a b (EOM.azimuth (x 0) (x 1)) t :=
    fun a b => periodic_eq (f := fun x => P.phitorque a b x t) (fun x => hper.phitorque a b x t) hc hs
  simp only [forceP, Coords.rect_to_cyl, eR, ez, ep, hc, hs, ac, as, EOM.rectForce, EOM.rectForceV, Pot.force]
  refine Coords.vec_ext ?_ ?_ ?_ <;>
    simp only [Matrix.cons_val_zero, Matrix.cons_val_one, Matrix.cons_val] <;> ring

/-- The region of rectangular points over the region of the wrapped potential. -/
def cartRegion (D : Set (ℝ × ℝ × ℝ)) : Set Vec := {x | 0 < x 0 ^ 2 + x 1 ^ 2 ∧ EOM.cylPoint x ∈ D}

theorem mem_turn {D : Set (ℝ × ℝ × ℝ)} (ht : TurnInvariant D) {R z φ φ' : ℝ} (hc : Real.cos φ = Real.cos φ')
    (hs : Real.sin φ = Real.sin φ') (h : (R, z, φ) ∈ D) : (R, z, φ') ∈ D := by
  obtain ⟨k, hk⟩ := angle_eq hc.symm hs.symm
  rw [hk]
  exact ht R z φ k h

theorem hessP_eq {P : Pot} {D : Set (ℝ × ℝ × ℝ)} (hP : SmoothOn P D) (hper : Periodic P) (ht : TurnInvariant D)
    (t : ℝ) {x : Vec} (hx : x ∈ cartRegion D) (i j : Fin 3) : hessP P x t i j = -EOM.tidal P t x i j := by
  obtain ⟨h0, hD⟩ := hx
  obtain ⟨hc, hs⟩ := atan2_azimuth h0
  obtain ⟨ac, as⟩ := EOM.azimuth_cos_sin h0
  have eR : ∀ a b, P.Rforce a b (Coords.atan2 (x 1) (x 0)) t = P.Rforce a b (EOM.azimuth (x 0) (x 1)) t := fun a b =>
    periodic_eq (f := fun x => P.Rforce a b x t) (fun x => hper.Rforce a b x t) hc hs
  have ep : ∀ a b, P.phitorque a b (Coords.atan2 (x 1) (x 0)) t = P.phitorque a b (EOM.azimuth (x 0) (x 1)) t :=
    fun a b => periodic_eq (f := fun x => P.phitorque a b x t) (fun x => hper.phitorque a b x t) hc hs
  obtain ⟨e1, e2, e3, e4, e5, e6⟩ := hP.turn hper (t := t) (mem_turn ht hc.symm hs.symm hD) hD hc hs
  simp only [hessP, Coords.rect_to_cyl, eR, ep, e1, e2, e3, e4, e5, e6, hc, hs, ac, as, EOM.tidal]
  have hR := (Real.sqrt_pos.2 h0).ne'
  generalize √(x 0 ^ 2 + x 1 ^ 2) = R at hR ⊢
  fin_cases i <;> fin_cases j <;>
    simp only [Matrix.of_apply, Fin.zero_eta, Fin.mk_one, Fin.reduceFinMk, Matrix.cons_val_zero, Matrix.cons_val_one,
      Matrix.cons_val] <;> field_simp <;> ring

/-! ### A smooth azimuth -/

/-- The azimuth followed continuously from `φ₀`. -/
noncomputable def azNear (φ₀ : ℝ) (x : Vec) : ℝ :=
  φ₀ + Complex.arg ⟨x 0 * Real.cos φ₀ + x 1 * Real.sin φ₀, -x 0 * Real.sin φ₀ + x 1 * Real.cos φ₀⟩

theorem azNear_polar (φ₀ : ℝ) (x : Vec) :
    x 0 = √(x 0 ^ 2 + x 1 ^ 2) * Real.cos (azNear φ₀ x) ∧ x 1 = √(x 0 ^ 2 + x 1 ^ 2) * Real.sin (azNear φ₀ x) := by
  have hcs := Real.cos_sq_add_sin_sq φ₀
  have e : √(x 0 ^ 2 + x 1 ^ 2) = √((x 0 * Real.cos φ₀ + x 1 * Real.sin φ₀) ^ 2 +
      (-x 0 * Real.sin φ₀ + x 1 * Real.cos φ₀) ^ 2) := by
    congr 1
    linear_combination (-(x 0 ^ 2) - x 1 ^ 2) * hcs
  have hc := Coords.polar_cos (x 0 * Real.cos φ₀ + x 1 * Real.sin φ₀) (-x 0 * Real.sin φ₀ + x 1 * Real.cos φ₀)
  have hs := Coords.polar_sin (x 0 * Real.cos φ₀ + x 1 * Real.sin φ₀) (-x 0 * Real.sin φ₀ + x 1 * Real.cos φ₀)
  rw [← e] at hc hs
  unfold Coords.atan2 at hc hs
  unfold azNear
  rw [Real.cos_add, Real.sin_add]
  generalize Complex.arg _ = a at hc hs ⊢
  constructor
  · linear_combination -Real.cos φ₀ * hc + Real.sin φ₀ * hs - x 0 * hcs
  · linear_combination -Real.sin φ₀ * hc - Real.cos φ₀ * hs - x 1 * hcs

theorem azNear_self {φ₀ R : ℝ} {x : Vec} (hR : 0 < R) (h0 : x 0 = R * Real.cos φ₀) (h1 : x 1 = R * Real.sin φ₀) :
    azNear φ₀ x = φ₀ ∧ DifferentiableAt ℝ (azNear φ₀) x := by
  have hcs := Real.cos_sq_add_sin_sq φ₀
  have e : (⟨x 0 * Real.cos φ₀ + x 1 * Real.sin φ₀, -x 0 * Real.sin φ₀ + x 1 * Real.cos φ₀⟩ : ℂ) = (R : ℂ) := by
    apply Complex.ext
    · simp only [Complex.ofReal_re, h0, h1]; linear_combination R * hcs
    · simp only [Complex.ofReal_im, h0, h1]; ring
  constructor
  · unfold azNear
    rw [e, Complex.arg_ofReal_of_nonneg hR.le, add_zero]
  · have hmem : (⟨x 0 * Real.cos φ₀ + x 1 * Real.sin φ₀, -x 0 * Real.sin φ₀ + x 1 * Real.cos φ₀⟩ : ℂ) ∈
        Complex.slitPlane := by
      rw [e]; exact Complex.ofReal_mem_slitPlane.2 hR
    have hlog := (Complex.hasStrictFDerivAt_log_real hmem).differentiableAt
    have hlin : DifferentiableAt ℝ (fun y : Vec =>
        (⟨y 0 * Real.cos φ₀ + y 1 * Real.sin φ₀, -y 0 * Real.sin φ₀ + y 1 * Real.cos φ₀⟩ : ℂ)) x := by
      have e2 : (fun y : Vec =>
          (⟨y 0 * Real.cos φ₀ + y 1 * Real.sin φ₀, -y 0 * Real.sin φ₀ + y 1 * Real.cos φ₀⟩ : ℂ)) =
          fun y : Vec => ((y 0 * Real.cos φ₀ + y 1 * Real.sin φ₀ : ℝ) : ℂ) +
            ((-y 0 * Real.sin φ₀ + y 1 * Real.cos φ₀ : ℝ) : ℂ) * Complex.I := by
        funext y
        exact Complex.mk_eq_add_mul_I _ _
      rw [e2]
      have c1 : DifferentiableAt ℝ (fun y : Vec => y 0 * Real.cos φ₀ + y 1 * Real.sin φ₀) x := by fun_prop
      have c2 : DifferentiableAt ℝ (fun y : Vec => -y 0 * Real.sin φ₀ + y 1 * Real.cos φ₀) x := by fun_prop
      exact (Complex.ofRealCLM.differentiableAt.comp x c1).add
        ((Complex.ofRealCLM.differentiableAt.comp x c2).mul_const _)
    have := Complex.imCLM.differentiableAt.comp x (DifferentiableAt.comp x hlog hlin)
    have e3 : azNear φ₀ = fun y => φ₀ + (Complex.imCLM ∘ (Complex.log ∘ fun y : Vec =>
        (⟨y 0 * Real.cos φ₀ + y 1 * Real.sin φ₀, -y 0 * Real.sin φ₀ + y 1 * Real.cos φ₀⟩ : ℂ))) y := by
      funext y
      simp [azNear, Complex.log_im]
    rw [e3]
    exact this.const_add φ₀

theorem azNear_azimuth {x : Vec} (φ₀ : ℝ) (h0 : 0 < x 0 ^ 2 + x 1 ^ 2) :
    Real.cos (azNear φ₀ x) = Real.cos (EOM.azimuth (x 0) (x 1)) ∧
    Real.sin (azNear φ₀ x) = Real.sin (EOM.azimuth (x 0) (x 1)) := by
  obtain ⟨hR, ex, ey⟩ := EOM.azimuth_spec h0
  obtain ⟨ax, ay⟩ := azNear_polar φ₀ x
  exact ⟨mul_left_cancel₀ hR.ne' (ax.symm.trans ex), mul_left_cancel₀ hR.ne' (ay.symm.trans ey)⟩

theorem hasR {x : Vec} (h0 : 0 < x 0 ^ 2 + x 1 ^ 2) :
    DifferentiableAt ℝ (fun y : Vec => √(y 0 ^ 2 + y 1 ^ 2)) x := by
  have : DifferentiableAt ℝ (fun y : Vec => y 0 ^ 2 + y 1 ^ 2) x := by fun_prop
  exact this.sqrt h0.ne'

theorem isOpen_cartRegion {D : Set (ℝ × ℝ × ℝ)} (ho : IsOpen D) (ht : TurnInvariant D) : IsOpen (cartRegion D) := by
  rw [isOpen_iff_mem_nhds]
  rintro x ⟨h0, hD⟩
  obtain ⟨hR, ex, ey⟩ := EOM.azimuth_spec h0
  obtain ⟨e, hd⟩ := azNear_self hR ex ey
  set φ₀ := EOM.azimuth (x 0) (x 1) with hφ
  have hc : ContinuousAt (fun y : Vec => (√(y 0 ^ 2 + y 1 ^ 2), y 2, azNear φ₀ y)) x :=
    (hasR h0).continuousAt.prodMk ((continuous_apply 2).continuousAt.prodMk hd.continuousAt)
  have hm : ∀ᶠ y in 𝓝 x, (√(y 0 ^ 2 + y 1 ^ 2), y 2, azNear φ₀ y) ∈ D := by
    refine hc (ho.mem_nhds ?_)
    change (√(x 0 ^ 2 + x 1 ^ 2), x 2, azNear φ₀ x) ∈ D
    rw [e]; exact hD
  have hp : ∀ᶠ y : Vec in 𝓝 x, 0 < y 0 ^ 2 + y 1 ^ 2 := by
    have : Continuous fun y : Vec => y 0 ^ 2 + y 1 ^ 2 := by fun_prop
    exact this.continuousAt.eventually (lt_mem_nhds h0)
  filter_upwards [hm, hp] with y h1 h2
  obtain ⟨a, b⟩ := azNear_azimuth φ₀ h2
  exact ⟨h2, mem_turn ht a b h1⟩

/-! ### Differentiability in rectangular coordinates -/

theorem cart_diff {D : Set (ℝ × ℝ × ℝ)} (ho : IsOpen D) (ht : TurnInvariant D) {f : ℝ → ℝ → ℝ → ℝ}
    (hper : ∀ R z φ, f R z (φ + 2 * Real.pi) = f R z φ)
    (hf : ∀ R z φ, (R, z, φ) ∈ D → DifferentiableAt ℝ (fun p : ℝ × ℝ × ℝ => f p.1 p.2.1 p.2.2) (R, z, φ))
    {x : Vec} (hx : x ∈ cartRegion D) :
    DifferentiableAt ℝ (fun y : Vec => f (√(y 0 ^ 2 + y 1 ^ 2)) (y 2) (Coords.atan2 (y 1) (y 0))) x := by
  obtain ⟨h0, hD⟩ := hx
  obtain ⟨hR, ex, ey⟩ := EOM.azimuth_spec h0
  obtain ⟨e, hd⟩ := azNear_self hR ex ey
  set φ₀ := EOM.azimuth (x 0) (x 1) with hφ
  have h2 : DifferentiableAt ℝ (fun y : Vec => y 2) x := by fun_prop
  have hin : DifferentiableAt ℝ (fun y : Vec => (√(y 0 ^ 2 + y 1 ^ 2), y 2, azNear φ₀ y)) x :=
    (hasR h0).prodMk (h2.prodMk hd)
  have key := DifferentiableAt.comp (g := fun p : ℝ × ℝ × ℝ => f p.1 p.2.1 p.2.2) x
    (by rw [e]; exact hf _ _ _ hD) hin
  refine key.congr_of_eventuallyEq ?_
  have hp : ∀ᶠ y : Vec in 𝓝 x, 0 < y 0 ^ 2 + y 1 ^ 2 := by
    have : Continuous fun y : Vec => y 0 ^ 2 + y 1 ^ 2 := by fun_prop
    exact this.continuousAt.eventually (lt_mem_nhds h0)
  filter_upwards [hp] with y hy
  obtain ⟨a, b⟩ := azNear_azimuth φ₀ hy
  obtain ⟨c, d⟩ := atan2_azimuth hy
  exact periodic_eq (f := fun φ => f _ _ φ) (fun φ => hper _ _ φ) (c.trans a.symm) (d.trans b.symm)

theorem atan2_polar_turn {R φ : ℝ} (hR : 0 < R) :
    Real.cos (Coords.atan2 (R * Real.sin φ) (R * Real.cos φ)) = Real.cos φ ∧
    Real.sin (Coords.atan2 (R * Real.sin φ) (R * Real.cos φ)) = Real.sin φ := by
  obtain ⟨h1, h2, h3⟩ := EOM.azimuth_polar (φ := φ) hR
  have h0 : 0 < (R * Real.cos φ) ^ 2 + (R * Real.sin φ) ^ 2 := Real.sqrt_pos.1 (by rw [h1]; exact hR)
  obtain ⟨a, b⟩ := atan2_azimuth h0
  exact ⟨a.trans h2, b.trans h3⟩

/-- The potential in rectangular coordinates as the wrapper computes it. -/
noncomputable def cart (P : Pot) (t : ℝ) (x : Vec) : ℝ :=
  P.val (√(x 0 ^ 2 + x 1 ^ 2)) (x 2) (Coords.atan2 (x 1) (x 0)) t

theorem isCart_cart {P : Pot} (hper : Periodic P) (t : ℝ) : IsCart P t (cart P t) := by
  intro R z φ hR
  obtain ⟨h1, -, -⟩ := EOM.azimuth_polar (φ := φ) hR
  obtain ⟨h2, h3⟩ := atan2_polar_turn (φ := φ) hR
  simp only [cart, Matrix.cons_val_zero, Matrix.cons_val_one, Matrix.cons_val]
  rw [h1]
  exact periodic_eq (f := fun φ => P.val R z φ t) (fun x => hper.val R z x t) h2 h3

theorem evaluate_eq (P : Pot) (W : Wrapper) (R z φ t : ℝ) : evaluate P W R z φ t = cart P t (point W R z φ) := rfl

/-! ### Curves -/

section curves
variable {P : Pot} {D : Set (ℝ × ℝ × ℝ)} {W : Wrapper}

theorem point_dR (hW : Orth W) (R z φ : ℝ) : HasDerivAt (fun u => point W u z φ)
    (fun k => W.rot k 0 * Real.cos φ + W.rot k 1 * Real.sin φ + W.rot k 2 * 0) R := by
  rw [hasDerivAt_pi]
  intro k
  simp only [point_eq hW]
  refine HasDerivAt.congr_deriv (by hasderiv) ?_
  ring

theorem point_dz (hW : Orth W) (R z φ : ℝ) : HasDerivAt (fun u => point W R u φ)
    (fun k => W.rot k 0 * 0 + W.rot k 1 * 0 + W.rot k 2 * 1) z := by
  rw [hasDerivAt_pi]
  intro k
  simp only [point_eq hW]
  refine HasDerivAt.congr_deriv (by hasderiv) ?_
  ring

theorem point_dphi (hW : Orth W) (R z φ : ℝ) : HasDerivAt (fun u => point W R z u)
    (fun k => W.rot k 0 * (-(R * Real.sin φ)) + W.rot k 1 * (R * Real.cos φ) + W.rot k 2 * 0) φ := by
  rw [hasDerivAt_pi]
  intro k
  simp only [point_eq hW]
  refine HasDerivAt.congr_deriv (by hasderiv) ?_
  ring

/-- The value along a curve. -/
theorem cart_curve (hP : SmoothOn P D) (hper : Periodic P) (hW : Orth W) (t : ℝ) {q : ℝ → Vec} {s a b c : ℝ}
    (hq : HasDerivAt q (fun k => W.rot k 0 * a + W.rot k 1 * b + W.rot k 2 * c) s) (hx : q s ∈ cartRegion D) :
    HasDerivAt (fun u => cart P t (q u)) (-(W.invRot.mulVec (forceP P (q s) t) 0 * a
      + W.invRot.mulVec (forceP P (q s) t) 1 * b + W.invRot.mulVec (forceP P (q s) t) 2 * c)) s := by
  have := EOM.cart_curve (isCart_cart hper t) hq hx.1 (hP.grad _ _ _ _ hx.2) (hP.diff _ _ _ _ hx.2)
  refine this.congr_deriv ?_
  rw [forceP_eq hper t hx.1, hW.inv]
  simp only [Coords.mulVec3, Matrix.transpose_apply]
  ring

/-- The matrix of second derivatives is symmetric. -/
theorem hess_symm (P : Pot) (W : Wrapper) (t : ℝ) (x : Vec) (i j : Fin 3) :
    (W.invRot * (hessP P x t * W.invRot.transpose)) i j = (W.invRot * (hessP P x t * W.invRot.transpose)) j i := by
  have hs : (hessP P x t).transpose = hessP P x t := by
    ext a b
    fin_cases a <;> fin_cases b <;> rfl
  have : (W.invRot * (hessP P x t * W.invRot.transpose)).transpose =
      W.invRot * (hessP P x t * W.invRot.transpose) := by
    rw [Matrix.transpose_mul, Matrix.transpose_mul, hs, Matrix.transpose_transpose, Matrix.mul_assoc]
  conv_lhs => rw [← this]
  rfl

/-- The force along a curve. -/
theorem force_curve (hP : SmoothOn P D) (hper : Periodic P) (ht : TurnInvariant D) (hW : Orth W) (t : ℝ)
    {q : ℝ → Vec} {s a b c : ℝ}
    (hq : HasDerivAt q (fun k => W.rot k 0 * a + W.rot k 1 * b + W.rot k 2 * c) s) (hx : q s ∈ cartRegion D)
    (i : Fin 3) :
    HasDerivAt (fun u => W.invRot.mulVec (forceP P (q u) t) i)
      (-((W.invRot * (hessP P (q s) t * W.invRot.transpose)) i 0 * a
        + (W.invRot * (hessP P (q s) t * W.invRot.transpose)) i 1 * b
        + (W.invRot * (hessP P (q s) t * W.invRot.transpose)) i 2 * c)) s := by
  have k := fun j => EOM.rectForce_curve hP hper t hq hx.1 hx.2 j
  have key := hd_add (hd_add (hd_mul (hd_const (W.invRot i 0) s) (k 0)) (hd_mul (hd_const (W.invRot i 1) s) (k 1)))
    (hd_mul (hd_const (W.invRot i 2) s) (k 2))
  have hev : ∀ᶠ u in 𝓝 s, q u ∈ cartRegion D :=
    hq.continuousAt.eventually ((isOpen_cartRegion hP.isOpen ht).mem_nhds hx)
  refine (key.congr_of_eventuallyEq ?_).congr_deriv ?_
  · filter_upwards [hev] with u hu
    rw [forceP_eq hper t hu.1, Coords.mulVec3]
  · simp only [Matrix.mul_apply, Fin.sum_univ_three, hessP_eq hP hper ht t hx, Matrix.transpose_apply, hW.inv]
    ring

end curves

/-- The region on which the wrapped potential is met. -/
def region (W : Wrapper) (D : Set (ℝ × ℝ × ℝ)) : Set (ℝ × ℝ × ℝ) :=
  {p | point W p.1 p.2.1 p.2.2 ∈ cartRegion D}

section smooth
variable {P : Pot} {D : Set (ℝ × ℝ × ℝ)} {W : Wrapper} (hP : SmoothOn P D) (hper : Periodic P)
  (ht : TurnInvariant D) (hW : Orth W)
include hP hper hW

theorem grad {R z φ t : ℝ} (h : (R, z, φ) ∈ region W D) : GradAt (pot P W) R z φ t := by
  have h' : point W R z φ ∈ cartRegion D := h
  refine ⟨(cart_curve hP hper hW t (point_dR hW R z φ) h').congr_deriv ?_,
    (cart_curve hP hper hW t (point_dz hW R z φ) h').congr_deriv ?_,
    (cart_curve hP hper hW t (point_dphi hW R z φ) h').congr_deriv ?_⟩ <;>
  simp only [pot, forceXYZ] <;> ring

include ht

theorem forceHess {R z φ t : ℝ} (h : (R, z, φ) ∈ region W D) : ForceHess (pot P W) R z φ t := by
  have h' : point W R z φ ∈ cartRegion D := h
  have kR := fun i => force_curve hP hper ht hW t (point_dR hW R z φ) h' i
  have kz := fun i => force_curve hP hper ht hW t (point_dz hW R z φ) h' i
  have kp := fun i => force_curve hP hper ht hW t (point_dphi hW R z φ) h' i
  have s10 := hess_symm P W t (point W R z φ) 1 0
  have s20 := hess_symm P W t (point W R z φ) 2 0
  have s21 := hess_symm P W t (point W R z φ) 2 1
  have hc := hd_cos (hd_id φ)
  have hs := hd_sin (hd_id φ)
  refine ⟨?_, ?_, ?_, ?_, ?_, ?_, ?_, ?_, ?_⟩
  · refine (hd_add (hd_mul (hd_const (Real.cos φ) R) (kR 0)) (hd_mul (hd_const (Real.sin φ) R) (kR 1))).congr_deriv ?_
    simp only [pot, hessXYZ, s10]; ring
  · refine (hd_add (hd_mul (hd_const (Real.cos φ) z) (kz 0)) (hd_mul (hd_const (Real.sin φ) z) (kz 1))).congr_deriv ?_
    simp only [pot, hessXYZ]; ring
  · refine (hd_add (hd_mul hc (kp 0)) (hd_mul hs (kp 1))).congr_deriv ?_
    simp only [pot, hessXYZ, forceXYZ, s10, Real.cos_two_mul']; ring
  · refine (kR 2).congr_deriv ?_
    simp only [pot, hessXYZ, s20, s21]; ring
  · refine (kz 2).congr_deriv ?_
    simp only [pot, hessXYZ]; ring
  · refine (kp 2).congr_deriv ?_
    simp only [pot, hessXYZ, s20, s21]; ring
  · refine (hd_mul (hd_id R) (hd_add (hd_mul (hd_const (-Real.sin φ) R) (kR 0))
      (hd_mul (hd_const (Real.cos φ) R) (kR 1)))).congr_deriv ?_
    simp only [pot, hessXYZ, forceXYZ, s10, Real.cos_two_mul']; ring
  · refine (hd_mul (hd_const R z) (hd_add (hd_mul (hd_const (-Real.sin φ) z) (kz 0))
      (hd_mul (hd_const (Real.cos φ) z) (kz 1)))).congr_deriv ?_
    simp only [pot, hessXYZ]; ring
  · refine (hd_mul (hd_const R φ) (hd_add (hd_mul (hd_neg hs) (kp 0)) (hd_mul hc (kp 1)))).congr_deriv ?_
    simp only [pot, hessXYZ, forceXYZ, s10]; ring

theorem isOpen_region : IsOpen (region W D) := by
  have hc : Continuous fun p : ℝ × ℝ × ℝ => point W p.1 p.2.1 p.2.2 := by
    rw [continuous_pi_iff]
    intro i
    simp only [point_eq hW]
    fun_prop
  exact (isOpen_cartRegion hP.isOpen ht).preimage hc

theorem force_diff {x : Vec} (hx : x ∈ cartRegion D) (t : ℝ) (i : Fin 3) :
    DifferentiableAt ℝ (fun y => forceP P y t i) x := by
  have fR := cart_diff hP.isOpen ht (f := fun a b c => P.Rforce a b c t) (fun a b c => hper.Rforce a b c t)
    (fun _ _ _ k => (hP.fdiff _ _ _ t k).dR) hx
  have fz := cart_diff hP.isOpen ht (f := fun a b c => P.zforce a b c t) (fun a b c => hper.zforce a b c t)
    (fun _ _ _ k => (hP.fdiff _ _ _ t k).dz) hx
  have fp := cart_diff hP.isOpen ht (f := fun a b c => P.phitorque a b c t) (fun a b c => hper.phitorque a b c t)
    (fun _ _ _ k => (hP.fdiff _ _ _ t k).dphi) hx
  have hR := (Real.sqrt_pos.2 hx.1).ne'
  have dR := hasR hx.1
  have d0 : DifferentiableAt ℝ (fun y : Vec => y 0) x := by fun_prop
  have d1 : DifferentiableAt ℝ (fun y : Vec => y 1) x := by fun_prop
  have di : DifferentiableAt ℝ (fun y : Vec => (√(y 0 ^ 2 + y 1 ^ 2))⁻¹) x :=
    DifferentiableAt.fun_inv (h := fun y : Vec => √(y 0 ^ 2 + y 1 ^ 2)) dR hR
  have c0 := d0.mul di
  have c1 := d1.mul di
  have hev : ∀ᶠ y : Vec in 𝓝 x, Real.cos (Coords.atan2 (y 1) (y 0)) = y 0 / √(y 0 ^ 2 + y 1 ^ 2) ∧
      Real.sin (Coords.atan2 (y 1) (y 0)) = y 1 / √(y 0 ^ 2 + y 1 ^ 2) := by
    have : Continuous fun y : Vec => y 0 ^ 2 + y 1 ^ 2 := by fun_prop
    filter_upwards [this.continuousAt.eventually (lt_mem_nhds hx.1)] with y hy
    obtain ⟨a, b⟩ := atan2_azimuth hy
    obtain ⟨c, d⟩ := EOM.azimuth_cos_sin hy
    exact ⟨a.trans c, b.trans d⟩
  obtain rfl | rfl | rfl : i = 0 ∨ i = 1 ∨ i = 2 := by fin_cases i <;> simp
  · refine ((c0.mul fR).sub ((c1.mul fp).mul di)).congr_of_eventuallyEq ?_
    filter_upwards [hev] with y hy
    simp [forceP, Coords.rect_to_cyl, hy.1, hy.2, div_eq_mul_inv]
  · refine ((c1.mul fR).add ((c0.mul fp).mul di)).congr_of_eventuallyEq ?_
    filter_upwards [hev] with y hy
    simp [forceP, Coords.rect_to_cyl, hy.1, hy.2, div_eq_mul_inv]
  · exact fz

theorem forceXYZ_diff {p : ℝ × ℝ × ℝ} (h : p ∈ region W D) (t : ℝ) (i : Fin 3) :
    DifferentiableAt ℝ (fun p : ℝ × ℝ × ℝ => forceXYZ P W p.1 p.2.1 p.2.2 t i) p := by
  have hq : DifferentiableAt ℝ (fun p : ℝ × ℝ × ℝ => point W p.1 p.2.1 p.2.2) p := by
    rw [differentiableAt_pi]
    intro k
    simp only [point_eq hW]
    fun_prop
  have k := fun j => DifferentiableAt.comp (g := fun y => forceP P y t j) p (force_diff hP hper ht hW h t j) hq
  simp only [forceXYZ, Coords.mulVec3]
  exact (((k 0).const_mul _).add ((k 1).const_mul _)).add ((k 2).const_mul _)

/-- The wrapper is as smooth as the potential it wraps. -/
theorem smoothOn : SmoothOn (pot P W) (region W D) := by
  have hq : Differentiable ℝ (fun p : ℝ × ℝ × ℝ => point W p.1 p.2.1 p.2.2) := by
    rw [differentiable_pi]
    intro k
    simp only [point_eq hW]
    fun_prop
  have ho := isOpen_region hP hper ht hW
  have hc : ∀ p : ℝ × ℝ × ℝ, DifferentiableAt ℝ (fun p : ℝ × ℝ × ℝ => Real.cos p.2.2) p := fun p => by fun_prop
  have hs : ∀ p : ℝ × ℝ × ℝ, DifferentiableAt ℝ (fun p : ℝ × ℝ × ℝ => Real.sin p.2.2) p := fun p => by fun_prop
  have h1 : ∀ p : ℝ × ℝ × ℝ, DifferentiableAt ℝ (fun p : ℝ × ℝ × ℝ => p.1) p := fun p => by fun_prop
  refine ⟨ho, fun R z φ t h => grad hP hper hW h, fun R z φ t h => ?_, fun R z φ t h => ?_, fun R z φ t h => ?_⟩
  · have cR : Tendsto (fun x : ℝ => (x, z, φ)) (𝓝 R) (𝓝 (R, z, φ)) := Continuous.tendsto' (by fun_prop) _ _ rfl
    have cz : Tendsto (fun x : ℝ => (R, x, φ)) (𝓝 z) (𝓝 (R, z, φ)) := Continuous.tendsto' (by fun_prop) _ _ rfl
    have cp : Tendsto (fun x : ℝ => (R, z, x)) (𝓝 φ) (𝓝 (R, z, φ)) := Continuous.tendsto' (by fun_prop) _ _ rfl
    have hn := ho.mem_nhds h
    exact HessAt.of_force ⟨(cR.eventually hn).mono fun _ k => grad hP hper hW k,
      (cz.eventually hn).mono fun _ k => grad hP hper hW k,
      (cp.eventually hn).mono fun _ k => grad hP hper hW k⟩ (forceHess hP hper ht hW h)
  · exact DifferentiableAt.comp (g := cart P t) (R, z, φ)
      (cart_diff hP.isOpen ht (f := fun a b c => P.val a b c t) (fun a b c => hper.val a b c t)
        (fun a b c k => hP.diff a b c t k) h) (hq _)
  · have k := fun i => forceXYZ_diff hP hper ht hW h t i
    exact ⟨((hc _).mul (k 0)).add ((hs _).mul (k 1)), k 2,
      (h1 _).mul (((hs _).neg.mul (k 0)).add ((hc _).mul (k 1)))⟩

end smooth

theorem periodic {P : Pot} {W : Wrapper} (hW : Orth W) : Periodic (pot P W) := by
  have e : ∀ R z φ, point W R z (φ + 2 * Real.pi) = point W R z φ := fun R z φ => by
    funext i
    rw [point_eq hW, point_eq hW, Real.cos_add_two_pi, Real.sin_add_two_pi]
  refine ⟨fun R z φ t => ?_, fun R z φ t => ?_, fun R z φ t => ?_, fun R z φ t => ?_⟩ <;>
    simp only [pot, evaluate, forceXYZ, e, Real.cos_add_two_pi, Real.sin_add_two_pi]

theorem turnInvariant {W : Wrapper} (hW : Orth W) (D : Set (ℝ × ℝ × ℝ)) : TurnInvariant (region W D) := by
  intro R z φ k h
  have e : point W R z (φ + k * (2 * Real.pi)) = point W R z φ := by
    funext i
    rw [point_eq hW, point_eq hW, Real.cos_add_int_mul_two_pi, Real.sin_add_int_mul_two_pi]
  change point W R z (φ + k * (2 * Real.pi)) ∈ cartRegion D
  rw [e]
  exact h

end Tilt
end Verif
