import Verif.Model.DF.StreamSpray
import Verif.Model.Pot.Spherical
import Verif.Model.Pot.LogarithmicHalo
import Verif.Lemmas.Coords
import Verif.Props.C46
import Verif.Props.C81

set_option autoImplicit false

/-!
# C98: particles of a spray are released at the tidal radius, in the frame of the progenitor's orbit

The frame of the orbit is given by the direction to the progenitor, the direction of its angular momentum and the direction of its motion around the centre,
perpendicular to both.
-/

noncomputable section
open Real Matrix

namespace Verif
open StreamSpray Util
open Coords (mulVec3)

namespace C98Spec

/-- Length of a vector. -/
def len (u : Vec) : ℝ := √(u 0 ^ 2 + u 1 ^ 2 + u 2 ^ 2)
/-- Vector product. -/
def crs (a b : Vec) : Vec := ![a 1 * b 2 - a 2 * b 1, a 2 * b 0 - a 0 * b 2, a 0 * b 1 - a 1 * b 0]
/-- Scalar product. -/
def ip (a b : Vec) : ℝ := a 0 * b 0 + a 1 * b 1 + a 2 * b 2
/-- From the centre to the progenitor. -/
def e1 (x : Vec) : Vec := fun i => x i / len x
/-- Along the angular momentum. -/
def e3 (x v : Vec) : Vec := fun i => crs x v i / len (crs x v)
/-- Along the motion around the centre. -/
def e2 (x v : Vec) : Vec := crs (e3 x v) (e1 x)
/-- The vector with the given components in the frame of the orbit. -/
def comb (x v : Vec) (a b c : ℝ) : Vec := fun i => a * e1 x i + b * e2 x v i + c * e3 x v i
/-- Orbits that are not within `1e-10` of the plane perpendicular to the third axis, or in it and prograde. -/
def Regular (L : Vec) : Prop :=
  (10 ^ (-10 : ℤ) ≤ 1 - L 2 / len L ∧ 10 ^ (-10 : ℤ) ≤ 1 + L 2 / len L) ∨ (L 0 = 0 ∧ L 1 = 0 ∧ 0 < L 2)
/-- Orbits in the plane, retrograde. -/
def Retrograde (L : Vec) : Prop := L 0 = 0 ∧ L 1 = 0 ∧ L 2 < 0

/-- Position and velocity of the centre at the time of release, zero without `center`. -/
def CenterAt (o : Obj) (dt : ℝ) (c cv : Vec) : Prop :=
  (o.center = none ∧ c = 0 ∧ cv = 0) ∨ ∃ f g, o.center = some (f, g) ∧ c = f (-dt) ∧ cv = g (-dt)
/-- The potential at distance `s` from the centre in the direction of the point `x` at azimuth `φ`. -/
def along (P : Pot) (x : Vec) (φ t s : ℝ) : ℝ := P.val (s * (√(x 0 ^ 2 + x 1 ^ 2) / len x)) (s * (x 2 / len x)) φ t
/-- The tidal radius of a mass `M` at distance `r` in the potential `ψ`: `rt³ (Ω² - d²ψ/dr²) = M`. -/
def IsTidal (ψ : ℝ → ℝ) (r M rt : ℝ) : Prop := 0 ≤ rt ∧ rt ^ 3 * (deriv ψ r / r - deriv (deriv ψ) r) = M
/-- The velocity of circular orbits. -/
def IsCirc (ψ : ℝ → ℝ) (r vc : ℝ) : Prop := 0 ≤ vc ∧ vc ^ 2 = r * deriv ψ r
/-- The radial force and its derivative along the first axis are those of the potential, at distances near `r`. -/
def Smooth (P : Pot) (t r : ℝ) : Prop :=
  (∀ᶠ s in nhds r, HasDerivAt (fun s => P.val s 0 0 t) (-P.Rforce s 0 0 t) s) ∧
    HasDerivAt (fun s => -P.Rforce s 0 0 t) (P.R2deriv r 0 0 t) r

/-- Position and velocity of a particle by Fardal et al. relative to the centre: cylindrical coordinates in the frame of the orbit, from those of the progenitor. -/
def fardal (x v : Vec) (rt vc : ℝ) (k : Fin 6 → ℝ) : Vec × Vec :=
  let r := len x;
  let φ := k 5 * (rt / r);
  let vR := ip v (e1 x) * (1 + k 1);
  let vT := ip v (e2 x v) + k 2 * vc * (rt / r);
  (comb x v ((r + k 0 * rt) * cos φ) ((r + k 0 * rt) * sin φ) (k 3 * (rt / r)),
    comb x v (vR * cos φ - vT * sin φ) (vR * sin φ + vT * cos φ) (k 4 * vc * (rt / r)))
/-- The vector of length `D` at azimuth `a` and latitude `b` in the frame of the orbit. -/
def offset (x v : Vec) (D a b : ℝ) : Vec := comb x v (D * (cos b * cos a)) (D * (cos b * sin a)) (D * sin b)

end C98Spec
open C98Spec

namespace C98aux

theorem crs_eq (a b : Vec) : crs a b = cross a b := rfl
theorem ip_eq (a b : Vec) : ip a b = dot a b := rfl

theorem len_pos {u : Vec} (h : u ≠ 0) : 0 < len u := by
  rw [len, sqrt_pos]
  by_contra hn
  apply h
  have h0 : u 0 ^ 2 = 0 := by nlinarith [sq_nonneg (u 0), sq_nonneg (u 1), sq_nonneg (u 2)]
  have h1 : u 1 ^ 2 = 0 := by nlinarith [sq_nonneg (u 0), sq_nonneg (u 1), sq_nonneg (u 2)]
  have h2 : u 2 ^ 2 = 0 := by nlinarith [sq_nonneg (u 0), sq_nonneg (u 1), sq_nonneg (u 2)]
  ext i
  fin_cases i
  · simpa using h0
  · simpa using h1
  · simpa using h2

theorem len_sq (u : Vec) : len u ^ 2 = u 0 ^ 2 + u 1 ^ 2 + u 2 ^ 2 := sq_sqrt (by positivity)
theorem dot_self' (u : Vec) : dot u u = len u ^ 2 := by rw [len_sq]; simp only [dot]; ring

theorem unit_len {L : Vec} (h : L ≠ 0) : len (unitVec L) = 1 := by
  have hp := len_pos h
  rw [len]
  simp only [unitVec]
  rw [show √(L 0 ^ 2 + L 1 ^ 2 + L 2 ^ 2) = len L from rfl, div_pow, div_pow, div_pow, ← add_div, ← add_div, ← len_sq, div_self (by positivity), sqrt_one]
theorem unit_ne {L : Vec} (h : L ≠ 0) : unitVec L ≠ 0 := by
  intro h0
  have := unit_len h
  rw [h0, len] at this
  simp at this

theorem cosine_eq {L : Vec} (h : L ≠ 0) : C46aux.cosine (unitVec L) ![0, 0, 1] = L 2 / len L := by
  have h1 : √(Spec.sq (unitVec L)) = 1 := unit_len h
  simp only [C46aux.cosine, h1]
  simp [unitVec, len]

/-- `z_rot` is a rotation that takes the angular momentum to the third axis. -/
theorem zRot_facts {L : Vec} (h : L ≠ 0) (hr : Regular L) :
    zRot L * (zRot L).transpose = 1 ∧ (zRot L).det = 1 ∧ (zRot L).mulVec L = ![0, 0, len L] ∧ zRotInv L = (zRot L).transpose := by
  have hp := len_pos h
  have hL : L = len L • unitVec L := by
    ext i
    simp only [unitVec, Pi.smul_apply, smul_eq_mul]
    rw [show √(L 0 ^ 2 + L 1 ^ 2 + L 2 ^ 2) = len L from rfl]
    field_simp
  rcases hr with ⟨h1, h2⟩ | ⟨h0, h1, h2⟩
  · obtain ⟨k1, k2, k3, -, k5⟩ := C46_rotation (unitVec L) ![0, 0, 1] (unit_ne h) (by simp [Spec.sq]) (by rw [cosine_eq h]; exact h1) (by rw [cosine_eq h]; exact h2)
    have e : rotateTo (unitVec L) ![0, 0, 1] true false = (rotateTo (unitVec L) ![0, 0, 1] false false).transpose := by
      have h' := mul_eq_one_comm.1 k1
      calc _ = ((rotateTo (unitVec L) ![0, 0, 1] false false).transpose * rotateTo (unitVec L) ![0, 0, 1] false false) * rotateTo (unitVec L) ![0, 0, 1] true false := by
            rw [h', one_mul]
        _ = _ := by rw [mul_assoc, k5, mul_one]
    have ez : zRot L = rotateTo (unitVec L) ![0, 0, 1] false false := by rw [zRot, e, Matrix.transpose_transpose]
    refine ⟨by rw [ez]; exact k1, by rw [ez]; exact k2, ?_, by rw [ez]; rfl⟩
    rw [ez]
    set M := rotateTo (unitVec L) ![0, 0, 1] false false
    have hm : M.mulVec L = len L • M.mulVec (unitVec L) := by rw [← Matrix.mulVec_smul, ← hL]
    rw [hm]
    ext i
    rw [Pi.smul_apply, k3 i, show √(Spec.sq (unitVec L)) = 1 from unit_len h]
    fin_cases i <;> simp
  · have hl : len L = L 2 := by rw [len, h0, h1]; simp [sqrt_sq h2.le]
    have hp' : ∀ inv, rotateTo (unitVec L) ![0, 0, 1] inv false = 1 := fun inv =>
      (C46_parallel _ _ inv (unit_ne h) (by simp [Spec.sq]) (by rw [cosine_eq h, hl, div_self h2.ne']; norm_num)).1
    rw [zRot, zRotInv, hp', hp']
    refine ⟨by simp, by simp, ?_, by simp⟩
    rw [Matrix.transpose_one, Matrix.one_mulVec, hl]
    ext i
    fin_cases i <;> simp [h0, h1]

theorem zRot_retro {L : Vec} (h : Retrograde L) : zRot L = -1 ∧ zRotInv L = -1 := by
  obtain ⟨h0, h1, h2⟩ := h
  have hne : L ≠ 0 := fun hz => by rw [hz] at h2; simp at h2
  have hl : len L = -L 2 := by rw [len, h0, h1]; simp [sqrt_sq_eq_abs, abs_of_neg h2]
  have hp' : ∀ inv, rotateTo (unitVec L) ![0, 0, 1] inv false = -1 := fun inv =>
    (C46_antiparallel_fails _ _ inv (by rw [cosine_eq hne, hl, div_neg, div_self h2.ne]; norm_num)).1
  rw [zRot, zRotInv, hp', hp']
  simp

/-- The rotation about the third axis. -/
theorem pa_facts {y : Vec} (h : 0 < y 0 ^ 2 + y 1 ^ 2) :
    (paRot y).1 * (paRot y).1.transpose = 1 ∧ (paRot y).1.det = 1 ∧ (paRot y).2 = (paRot y).1.transpose ∧
      (paRot y).1.mulVec y = ![√(y 0 ^ 2 + y 1 ^ 2), 0, y 2] ∧ ∀ c, (paRot y).1.mulVec ![0, 0, c] = ![0, 0, c] := by
  have hs := sqrt_pos.2 h
  have hq := sq_sqrt h.le
  set R := √(y 0 ^ 2 + y 1 ^ 2) with hR
  have hcs : (y 0 / R) ^ 2 + (y 1 / R) ^ 2 = 1 := by rw [div_pow, div_pow, ← add_div, hq, div_self h.ne']
  simp only [paRot, ← hR]
  refine ⟨?_, ?_, ?_, ?_, ?_⟩
  · ext i j
    fin_cases i <;> fin_cases j <;> simp [Matrix.mul_apply, Fin.sum_univ_three] <;> first | linear_combination hcs | ring
  · rw [Matrix.det_fin_three]
    simp
    linear_combination hcs
  · ext i j
    fin_cases i <;> fin_cases j <;> simp
  · ext i
    fin_cases i <;> simp [mulVec3] <;> field_simp
    · linarith
    · ring
  · intro c
    ext i
    fin_cases i <;> simp [mulVec3]

/-- What the two matrices do; `σ = 1` if the second axis is along the motion, `-1` if it is opposite. -/
structure Framed (x v : Vec) (σ : ℝ) : Prop where
  rot : ∀ w, (setupRot x (crs x v)).1.mulVec w = ![ip w (e1 x), σ * ip w (e2 x v), ip w (e3 x v)]
  inv : ∀ a b c, (setupRot x (crs x v)).2.mulVec ![a, b, c] = comb x v a (σ * b) c
  sq : σ ^ 2 = 1
  norm : ∀ a b c, len (comb x v a b c) ^ 2 = a ^ 2 + b ^ 2 + c ^ 2
  back : ∀ w, comb x v (ip w (e1 x)) (ip w (e2 x v)) (ip w (e3 x v)) = w

theorem x_ne {x v : Vec} (h : crs x v ≠ 0) : x ≠ 0 := by
  rintro rfl
  apply h
  ext i
  fin_cases i <;> simp [crs]

theorem of_rot {x v : Vec} {σ : ℝ} (hσ : σ ^ 2 = 1)
    (h : ∀ w, (setupRot x (crs x v)).1.mulVec w = ![ip w (e1 x), σ * ip w (e2 x v), ip w (e3 x v)])
    (ht : (setupRot x (crs x v)).2 = (setupRot x (crs x v)).1.transpose)
    (ho : (setupRot x (crs x v)).1.transpose * (setupRot x (crs x v)).1 = 1) : Framed x v σ := by
  have hi : ∀ a b c, (setupRot x (crs x v)).2.mulVec ![a, b, c] = comb x v a (σ * b) c := ?_
  · refine ⟨h, hi, hσ, fun a b c => ?_, fun w => ?_⟩
    · have h1 := hi a (σ * b) c
      rw [← mul_assoc, ← pow_two, hσ, one_mul] at h1
      rw [← h1, ht, ← dot_self', C81aux.rot_dot (by rw [Matrix.transpose_transpose, ho]) ]
      simp only [dot]
      simp
      linear_combination b ^ 2 * hσ
    have := hi (ip w (e1 x)) (σ * ip w (e2 x v)) (ip w (e3 x v))
    rw [← h w, ht, Matrix.mulVec_mulVec, ho, Matrix.one_mulVec, ← mul_assoc, ← pow_two, hσ, one_mul] at this
    exact this.symm
  intro a b c
  rw [ht]
  set M := (setupRot x (crs x v)).1
  have hc : ∀ i j, M j i = (![e1 x i, σ * e2 x v i, e3 x v i] : Vec) j := by
    intro i j
    have := congrFun (h (fun k => if k = i then 1 else 0)) j
    fin_cases i <;> fin_cases j <;> simpa [mulVec3, ip] using this
  ext i
  rw [mulVec3]
  simp only [Matrix.transpose_apply, hc]
  simp [comb]
  ring

theorem framed_regular {x v : Vec} (hL : crs x v ≠ 0) (hr : Regular (crs x v)) : Framed x v 1 := by
  obtain ⟨z1, z2, z3, z4⟩ := zRot_facts hL hr
  have hx := x_ne hL
  have hxp := len_pos hx
  have hLp := len_pos hL
  set L := crs x v with hLdef
  set y := (zRot L).mulVec x with hy
  have hxL : dot x L = 0 := by simp only [hLdef, crs, dot]; simp; ring
  have hy2 : y 2 = 0 := by
    have := C81aux.rot_dot z1 x L
    rw [z3, hxL, ← hy] at this
    simp only [dot] at this
    simp at this
    rcases this with h | h
    · exact h
    · exact absurd h hLp.ne'
  have hyl : y 0 ^ 2 + y 1 ^ 2 = len x ^ 2 := by
    have := C81aux.rot_dot z1 x x
    rw [← hy, dot_self', dot_self', len_sq, hy2] at this
    linarith
  obtain ⟨p1, p2, p3, p4, p5⟩ := pa_facts (y := y) (by rw [hyl]; positivity)
  set M := (setupRot x L).1 with hM
  have eM : M = (paRot y).1 * zRot L := rfl
  have m1 : M * M.transpose = 1 := by
    rw [eM, Matrix.transpose_mul, Matrix.mul_assoc, ← Matrix.mul_assoc (zRot L), z1, one_mul, p1]
  have m2 : M.det = 1 := by rw [eM, Matrix.det_mul, p2, z2, one_mul]
  have mx : M.mulVec x = ![len x, 0, 0] := by
    rw [eM, ← Matrix.mulVec_mulVec, ← hy, p4, hyl, hy2, sqrt_sq hxp.le]
  have mL : M.mulVec L = ![0, 0, len L] := by rw [eM, ← Matrix.mulVec_mulVec, z3, p5]
  have m3 : (setupRot x L).2 = M.transpose := by
    rw [eM, Matrix.transpose_mul, ← p3, ← z4]; rfl
  have mLx : M.mulVec (cross L x) = ![0, len L * len x, 0] := by
    ext i
    rw [C81aux.rot_cross m1 m2, mx, mL]
    fin_cases i <;> simp [cross]
  refine of_rot (by norm_num) (fun w => ?_) m3 (mul_eq_one_comm.1 m1)
  have k1 := C81aux.rot_dot m1 w x
  have k2 := C81aux.rot_dot m1 w (cross L x)
  have k3 := C81aux.rot_dot m1 w L
  rw [mx] at k1
  rw [mLx] at k2
  rw [mL] at k3
  simp only [dot] at k1 k2 k3
  simp at k1 k2 k3
  have f3 : ∀ i, e3 x v i = L i / len L := fun _ => rfl
  have f1 : ∀ i, e1 x i = x i / len x := fun _ => rfl
  have f2 : e2 x v = ![L 1 / len L * (x 2 / len x) - L 2 / len L * (x 1 / len x), L 2 / len L * (x 0 / len x) - L 0 / len L * (x 2 / len x),
    L 0 / len L * (x 1 / len x) - L 1 / len L * (x 0 / len x)] := rfl
  simp only [cross] at k2
  simp at k2
  generalize M.mulVec w = u at *
  generalize len L = l at *
  generalize len x = r at *
  ext i
  fin_cases i
  · simp only [ip, f1]
    simp
    field_simp
    linarith
  · simp only [ip, f2]
    simp
    field_simp
    linarith
  · simp only [ip, f3]
    simp
    field_simp
    linarith

theorem framed_retro {x v : Vec} (hr : Retrograde (crs x v)) : Framed x v (-1) := by
  obtain ⟨z1, z2⟩ := zRot_retro hr
  have hL : crs x v ≠ 0 := fun hz => by have := hr.2.2; rw [hz] at this; simp at this
  have hx := x_ne hL
  have hxp := len_pos hx
  set L := crs x v with hLdef
  have hl : len L = -L 2 := by rw [len, hr.1, hr.2.1]; simp [sqrt_sq_eq_abs, abs_of_neg hr.2.2]
  have hxL : dot x L = 0 := by simp only [hLdef, crs, dot]; simp; ring
  have hx2 : x 2 = 0 := by
    simp only [dot, hr.1, hr.2.1] at hxL
    simp at hxL
    exact hxL.resolve_right hr.2.2.ne
  have hy : (zRot L).mulVec x = -x := by rw [z1, Matrix.neg_mulVec, Matrix.one_mulVec]
  have hR : √((-x) 0 ^ 2 + (-x) 1 ^ 2) = len x := by rw [len, hx2]; simp
  have hlen : 0 < (-x) 0 ^ 2 + (-x) 1 ^ 2 := by
    have := len_sq x
    rw [hx2] at this
    simp only [Pi.neg_apply, neg_sq]
    have : 0 < len x ^ 2 := by positivity
    linarith
  obtain ⟨p1, -, p3, -, -⟩ := pa_facts (y := -x) hlen
  have e : (setupRot x L).1 = (paRot (-x)).1 * -1 := by simp only [setupRot, hy]; rw [z1]
  refine of_rot (by norm_num) (fun w => ?_) ?_ ?_
  · rw [← hLdef, e, mul_neg, mul_one, Matrix.neg_mulVec]
    have h0 := hr.1
    have h1 := hr.2.1
    have hne := hr.2.2.ne
    have f3 : ∀ i, e3 x v i = L i / len L := fun _ => rfl
    have f1 : ∀ i, e1 x i = x i / len x := fun _ => rfl
    have f2 : e2 x v = ![L 1 / len L * (x 2 / len x) - L 2 / len L * (x 1 / len x), L 2 / len L * (x 0 / len x) - L 0 / len L * (x 2 / len x),
      L 0 / len L * (x 1 / len x) - L 1 / len L * (x 0 / len x)] := rfl
    have em : (paRot (-x)).1 = (!![-x 0 / len x, - -x 1 / len x, 0; -x 1 / len x, -x 0 / len x, 0; 0, 0, 1]).transpose := by
      simp only [paRot, hR]; simp [neg_div]
    rw [em]
    rw [hl] at f2 f3
    generalize len x = r at *
    clear_value L
    ext i
    simp only [Pi.neg_apply, mulVec3, ip]
    fin_cases i
    · simp [f1, hx2]
      field_simp
      ring
    · simp [f2, hx2, h0, h1]
      field_simp
    · simp [f3, h0, h1]
      field_simp
  · simp only [setupRot, hy, ← hLdef]
    rw [z1, z2, p3, Matrix.transpose_mul]
    simp
  · rw [← hLdef, e, Matrix.transpose_mul]
    simp [mul_eq_one_comm.1 p1]

theorem ip_e1_self {x : Vec} (h : x ≠ 0) : ip x (e1 x) = len x := by
  have hp := len_pos h
  have hs := len_sq x
  simp only [ip, e1]
  generalize len x = r at *
  field_simp
  linarith
theorem ip_crs (x v : Vec) : ip x (crs x v) = 0 ∧ ip v (crs x v) = 0 := by
  constructor <;> (simp only [ip, crs]; simp; ring)
theorem ip_e3 (x v w : Vec) (h : ip w (crs x v) = 0) : ip w (e3 x v) = 0 := by
  have : ip w (e3 x v) = ip w (crs x v) / len (crs x v) := by simp only [ip, e3]; ring
  rw [this, h, zero_div]
theorem ip_e2_self (x v : Vec) : ip x (e2 x v) = 0 := by
  simp only [e2, e1, crs, ip]
  simp
  ring

theorem rot_x {x v : Vec} {σ : ℝ} (hL : crs x v ≠ 0) (h : Framed x v σ) : (setupRot x (crs x v)).1.mulVec x = ![len x, 0, 0] := by
  rw [h.rot, ip_e1_self (x_ne hL), ip_e2_self, ip_e3 x v x (ip_crs x v).1, mul_zero]
theorem rot_v {x v : Vec} {σ : ℝ} (h : Framed x v σ) :
    (setupRot x (crs x v)).1.mulVec v = ![ip v (e1 x), σ * ip v (e2 x v), 0] := by
  rw [h.rot, ip_e3 x v v (ip_crs x v).2]

theorem atan2_zero {r : ℝ} (h : 0 < r) : Coords.rect_to_cyl r 0 0 = (r, 0, 0) := by
  have h1 : Coords.atan2 0 r = 0 := by
    have := Coords.atan2_polar (a := 0) h (by linarith [pi_pos]) pi_pos.le
    simpa using this
  simp [Coords.rect_to_cyl, h1, sqrt_sq h.le]

theorem comb_sub (x v : Vec) (a b c a' b' c' : ℝ) : comb x v (a + a') (b + b') (c + c') = comb x v a b c + comb x v a' b' c' := by
  ext i
  simp only [comb, Pi.add_apply]
  ring

/-- The tidal radius and the circular velocity in the code are at distance `|x|` on the first axis. -/
theorem rtide_eq (o : Obj) {r : ℝ} (hr : 0 < r) (dt : ℝ) :
    o.calcRtide r 0 0 dt = (o.mass (-dt) / (-o.rtpot.Rforce r 0 0 (-dt) / r - o.rtpot.R2deriv r 0 0 (-dt))) ^ (1 / 3 : ℝ) := by
  simp only [Obj.calcRtide, PotQuant.rtide, PotQuant.rforce, PotQuant.r2deriv]
  rw [show r ^ 2 + (0 : ℝ) ^ 2 = r ^ 2 by ring, sqrt_sq hr.le]
  congr 2
  field_simp
  ring

theorem derivs {P : Pot} {x : Vec} {φ t : ℝ} {r : ℝ} (hr : 0 < r) (hs : Smooth P t r) (ha : ∀ s > 0, along P x φ t s = P.val s 0 0 t) :
    deriv (along P x φ t) r = -P.Rforce r 0 0 t ∧ deriv (deriv (along P x φ t)) r = P.R2deriv r 0 0 t := by
  have he : ∀ᶠ s in nhds r, deriv (along P x φ t) s = -P.Rforce s 0 0 t := by
    filter_upwards [hs.1, eventually_gt_nhds hr] with s h1 h2
    refine (h1.congr_of_eventuallyEq ?_).deriv
    filter_upwards [eventually_gt_nhds h2] with u hu
    exact ha u hu
  exact ⟨he.self_of_nhds, (hs.2.congr_of_eventuallyEq he).deriv⟩

theorem tidal {o : Obj} {x : Vec} {φ dt : ℝ} (hx : x ≠ 0) (hs : Smooth o.rtpot (-dt) (len x))
    (ha : ∀ s > 0, along o.rtpot x φ (-dt) s = o.rtpot.val s 0 0 (-dt)) (hM : 0 ≤ o.mass (-dt))
    (hp : 0 < deriv (along o.rtpot x φ (-dt)) (len x) / len x - deriv (deriv (along o.rtpot x φ (-dt))) (len x)) :
    IsTidal (along o.rtpot x φ (-dt)) (len x) (o.mass (-dt)) (o.calcRtide (len x) 0 0 dt) := by
  have hr := len_pos hx
  obtain ⟨d1, d2⟩ := derivs hr hs ha
  rw [rtide_eq o hr, ← d1, ← d2]
  refine ⟨rpow_nonneg (div_nonneg hM hp.le) _, ?_⟩
  rw [← rpow_natCast, ← rpow_mul (div_nonneg hM hp.le)]
  norm_num
  exact div_mul_cancel₀ _ hp.ne'

theorem circ {o : Obj} {x : Vec} {φ dt : ℝ} (hx : x ≠ 0) (hs : Smooth o.rtpot (-dt) (len x))
    (ha : ∀ s > 0, along o.rtpot x φ (-dt) s = o.rtpot.val s 0 0 (-dt))
    (hp : 0 ≤ deriv (along o.rtpot x φ (-dt)) (len x)) :
    IsCirc (along o.rtpot x φ (-dt)) (len x) (o.calcVc (len x) 0 0 dt) := by
  have hr := len_pos hx
  obtain ⟨d1, -⟩ := derivs hr hs ha
  rw [d1] at hp
  refine ⟨sqrt_nonneg _, ?_⟩
  rw [Obj.calcVc, sq_sqrt (by nlinarith), d1]
  ring

/-- The position and velocity of the centre. -/
def ctr (o : Obj) (dt : ℝ) : Vec × Vec := match o.center with
  | none => (0, 0)
  | some c => (c.1 (-dt), c.2 (-dt))

theorem particle_eq (o : Obj) (spray : Vec → Vec → ℝ → Vec × Vec) (dt : ℝ) {x v : Vec} (h : o.rel dt = (x, v)) :
    o.particle spray dt = ((setupRot x (crs x v)).2.mulVec (spray ((setupRot x (crs x v)).1.mulVec x) ((setupRot x (crs x v)).1.mulVec v) dt).1 + (ctr o dt).1,
      (setupRot x (crs x v)).2.mulVec (spray ((setupRot x (crs x v)).1.mulVec x) ((setupRot x (crs x v)).1.mulVec v) dt).2 + (ctr o dt).2) := by
  simp only [Obj.particle, h, ctr, ← crs_eq]
  cases o.center <;> simp

theorem fardal_eq (o : Obj) (k : Fin 6 → ℝ) (dt : ℝ) {x v : Vec} {σ : ℝ} (h : o.rel dt = (x, v)) (hL : crs x v ≠ 0) (hf : Framed x v σ) :
    o.particle (o.fardal15 k) dt
      = ((fardal x v (o.calcRtide (len x) 0 0 dt) (o.calcVc (len x) 0 0 dt) ![k 0, k 1, σ * k 2, k 3, k 4, σ * k 5]).1 + (ctr o dt).1,
        (fardal x v (o.calcRtide (len x) 0 0 dt) (o.calcVc (len x) 0 0 dt) ![k 0, k 1, σ * k 2, k 3, k 4, σ * k 5]).2 + (ctr o dt).2) := by
  have hr := len_pos (x_ne hL)
  rw [particle_eq o _ dt h, rot_x hL hf, rot_v hf]
  simp only [Obj.fardal15]
  simp only [Matrix.cons_val_zero, Matrix.cons_val_one, Matrix.cons_val]
  rw [atan2_zero hr]
  simp only [Coords.cyl_to_rect, Coords.rect_to_cyl_vec_cyl, Coords.cyl_to_rect_vec, hf.inv, cos_zero, sin_zero, zero_add, mul_zero, add_zero, mul_one, neg_zero, fardal]
  have hs := hf.sq
  rcases (show σ = 1 ∨ σ = -1 from by simpa using hs) with rfl | rfl
  · simp
  · simp
    congr 1 <;> ring

theorem rel_eq {o : Obj} {dt : ℝ} {c cv x v : Vec} (h : CenterAt o dt c cv) (hx : x = o.x (-dt) - c) (hv : v = o.v (-dt) - cv) :
    o.rel dt = (x, v) ∧ ctr o dt = (c, cv) := by
  rcases h with ⟨h1, h2, h3⟩ | ⟨f, g, h1, h2, h3⟩
  · simp [Obj.rel, ctr, h1, hx, hv, h2, h3]
  · simp [Obj.rel, ctr, h1, hx, hv, h2, h3]

theorem chen_eq (o : Obj) (p : Fin 6 → ℝ) (leading : Bool) (dt : ℝ) {x v : Vec} (h : o.rel dt = (x, v)) (hL : crs x v ≠ 0) (hf : Framed x v 1) :
    o.particle (o.chen24 p leading) dt
      = (x + (if leading then -1 else 1 : ℝ) • offset x v (p 0 * o.calcRtide (len x) 0 0 dt) (p 1) (p 2) + (ctr o dt).1,
        v + (if leading then -1 else 1 : ℝ) • offset x v (p 3 * √(2 * o.mass (-dt) / (p 0 * o.calcRtide (len x) 0 0 dt))) (p 4) (p 5) + (ctr o dt).2) := by
  have hr := len_pos (x_ne hL)
  have hx : x = comb x v (len x) 0 0 := by
    have := hf.back x
    rw [ip_e1_self (x_ne hL), ip_e2_self, ip_e3 x v x (ip_crs x v).1] at this
    exact this.symm
  have hv : v = comb x v (ip v (e1 x)) (ip v (e2 x v)) 0 := by
    have := hf.back v
    rw [ip_e3 x v v (ip_crs x v).2] at this
    exact this.symm
  have hh : ∀ q : ℝ, 0.5 * π - q = π / 2 - q := fun q => by norm_num; ring
  rw [particle_eq o _ dt h, rot_x hL hf, rot_v hf]
  simp only [Obj.chen24]
  simp only [Matrix.cons_val_zero, Matrix.cons_val_one, Matrix.cons_val]
  rw [atan2_zero hr]
  simp only [Coords.cyl_to_rect, Coords.spher_to_cyl, hf.inv, hh, sin_pi_div_two_sub, cos_pi_div_two_sub, offset]
  have key : ∀ (w : Vec) (a b D α β : ℝ), w = comb x v a b 0 →
      comb x v (a + (if leading then D * -1 else D) * cos β * cos α) (1 * (b + (if leading then D * -1 else D) * cos β * sin α)) (0 + (if leading then D * -1 else D) * sin β)
        = w + (if leading then -1 else 1 : ℝ) • comb x v (D * (cos β * cos α)) (D * (cos β * sin α)) (D * sin β) := by
    rintro w a b D α β rfl
    ext i
    simp only [comb, Pi.add_apply, Pi.smul_apply, smul_eq_mul]
    cases leading <;> simp <;> ring
  rw [key x _ _ _ _ _ hx, one_mul (ip v (e2 x v)), key v _ _ _ _ _ hv]

/-- In spherical potentials every line is the same. -/
theorem along_spherical (P : Spherical.Radial) (x : Vec) (hx : x ≠ 0) (φ t s : ℝ) (hs : 0 < s) : along (Spherical.pot P) x φ t s = (Spherical.pot P).val s 0 0 t := by
  have hp := len_pos hx
  have hq := len_sq x
  simp only [along, Spherical.pot, Spherical.evaluate]
  have h2 : √(x 0 ^ 2 + x 1 ^ 2) ^ 2 = x 0 ^ 2 + x 1 ^ 2 := sq_sqrt (by positivity)
  congr 2
  rw [mul_pow, mul_pow, div_pow, div_pow, h2, ← mul_add, ← add_div, ← hq, div_self (by positivity)]
  ring
/-- In axisymmetric potentials every line in the plane is the same. -/
theorem along_planar (P : Pot) (hP : ∀ R z φ φ' t, P.val R z φ t = P.val R z φ' t) (x : Vec) (hx : x ≠ 0) (h2 : x 2 = 0) (φ t s : ℝ) :
    along P x φ t s = P.val s 0 0 t := by
  have hp := len_pos hx
  have : √(x 0 ^ 2 + x 1 ^ 2) = len x := by rw [len, h2]; simp
  rw [along, this, h2, div_self hp.ne', mul_one, zero_div, mul_zero, hP]

/-- The spherical logarithmic potential. -/
def logR : Spherical.Radial := ⟨fun r _ => log r, fun r _ => -(1 / r), fun r _ => -(1 / r ^ 2), fun r _ => 1 / (4 * π * r ^ 2)⟩

theorem log_val {s : ℝ} (hs : 0 < s) (t : ℝ) : (Spherical.pot logR).val s 0 0 t = log s := by
  simp [Spherical.pot, Spherical.evaluate, logR, sqrt_sq hs.le]
theorem log_force {s : ℝ} (hs : 0 < s) (t : ℝ) : (Spherical.pot logR).Rforce s 0 0 t = -(1 / s) := by
  simp only [Spherical.pot, Spherical.Rforce, logR]
  rw [show s ^ 2 + (0 : ℝ) ^ 2 = s ^ 2 by ring, sqrt_sq hs.le]
  field_simp
theorem log_d2 {s : ℝ} (hs : 0 < s) (t : ℝ) : (Spherical.pot logR).R2deriv s 0 0 t = -(1 / s ^ 2) := by
  simp only [Spherical.pot, Spherical.R2deriv, logR]
  rw [show s ^ 2 + (0 : ℝ) ^ 2 = s ^ 2 by ring, sqrt_sq hs.le]
  field_simp
  ring

theorem log_smooth {r : ℝ} (hr : 0 < r) (t : ℝ) : Smooth (Spherical.pot logR) t r := by
  constructor
  · filter_upwards [eventually_gt_nhds hr] with s hs
    rw [log_force hs]
    have h := hasDerivAt_log hs.ne'
    rw [neg_neg, one_div]
    refine h.congr_of_eventuallyEq ?_
    filter_upwards [eventually_gt_nhds hs] with u hu
    exact log_val hu t
  · rw [log_d2 hr]
    have h := hasDerivAt_inv hr.ne'
    refine (h.congr_of_eventuallyEq ?_).congr_deriv (by rw [one_div])
    filter_upwards [eventually_gt_nhds hr] with u hu
    rw [log_force hu, neg_neg, one_div]

/-- A progenitor that stays in place. -/
def fixed (x v : Vec) (P : Pot) (M : ℝ) : Obj := ⟨fun _ => x, fun _ => v, none, P, fun _ => M⟩

theorem log_along {x : Vec} (hx : x ≠ 0) (φ t : ℝ) :
    deriv (along (Spherical.pot logR) x φ t) (len x) = 1 / len x ∧ deriv (deriv (along (Spherical.pot logR) x φ t)) (len x) = -(1 / len x ^ 2) := by
  have hr := len_pos hx
  obtain ⟨h1, h2⟩ := derivs (φ := φ) hr (log_smooth hr t) (fun s hs => along_spherical logR x hx φ t s hs)
  rw [h1, h2, log_force hr, log_d2 hr]
  simp

theorem log_tidal {x : Vec} (hx : x ≠ 0) (φ t M rt : ℝ) : IsTidal (along (Spherical.pot logR) x φ t) (len x) M rt ↔ 0 ≤ rt ∧ rt ^ 3 * 2 = M * len x ^ 2 := by
  have hr := len_pos hx
  obtain ⟨h1, h2⟩ := log_along hx φ t
  rw [IsTidal, h1, h2]
  refine and_congr_right fun _ => ?_
  rw [show 1 / len x / len x - -(1 / len x ^ 2) = 2 / len x ^ 2 by field_simp; norm_num, ← mul_div_assoc, div_eq_iff (by positivity)]
theorem log_circ {x : Vec} (hx : x ≠ 0) (φ t vc : ℝ) : IsCirc (along (Spherical.pot logR) x φ t) (len x) vc ↔ vc = 1 := by
  have hr := len_pos hx
  rw [IsCirc, (log_along hx φ t).1, mul_one_div_cancel hr.ne']
  constructor
  · rintro ⟨h1, h2⟩
    nlinarith
  · rintro rfl
    norm_num

end C98aux
open C98aux

/-- Particles of `fardal15spraydf` are where the rule of Fardal et al. puts them in the frame of the progenitor's orbit, with the tidal radius and the circular velocity
at the position of the progenitor, relative to the centre if there is one.  Missing: progenitors in potentials that are not the same along the line to the progenitor as along the first
axis, where the tidal radius is not that at the progenitor (`C98_tide_fails`); retrograde orbits in the plane (`C98_retrograde_fails`). -/
theorem C98_fardal_partial (o : Obj) (k : Fin 6 → ℝ) (dt φ : ℝ) (c cv x v : Vec) (hc : CenterAt o dt c cv) (hx : x = o.x (-dt) - c) (hv : v = o.v (-dt) - cv)
    (hL : crs x v ≠ 0) (hr : Regular (crs x v)) (hs : Smooth o.rtpot (-dt) (len x))
    (ha : ∀ s > 0, along o.rtpot x φ (-dt) s = o.rtpot.val s 0 0 (-dt)) (hM : 0 ≤ o.mass (-dt))
    (hF : 0 ≤ deriv (along o.rtpot x φ (-dt)) (len x))
    (hp : 0 < deriv (along o.rtpot x φ (-dt)) (len x) / len x - deriv (deriv (along o.rtpot x φ (-dt))) (len x)) :
    ∃ rt vc, IsTidal (along o.rtpot x φ (-dt)) (len x) (o.mass (-dt)) rt ∧ IsCirc (along o.rtpot x φ (-dt)) (len x) vc ∧
      o.particle (o.fardal15 k) dt = ((fardal x v rt vc k).1 + c, (fardal x v rt vc k).2 + cv) := by
  obtain ⟨h1, h2⟩ := rel_eq hc hx hv
  refine ⟨_, _, tidal (x_ne hL) hs ha hM hp, circ (x_ne hL) hs ha hF, ?_⟩
  rw [fardal_eq o k dt h1 hL (framed_regular hL hr), h2]
  have : (![k 0, k 1, 1 * k 2, k 3, k 4, 1 * k 5] : Fin 6 → ℝ) = k := by
    ext i
    fin_cases i <;> simp
  rw [this]

/-- Particles of `chen24spraydf` start at the given number of tidal radii from the progenitor, in the given direction in the frame of the orbit, with the given fraction of the velocity
that escapes from the progenitor there; those of the leading tail in the opposite direction.  Missing: as in `C98_fardal_partial`. -/
theorem C98_chen24_partial (o : Obj) (p : Fin 6 → ℝ) (leading : Bool) (dt φ : ℝ) (c cv x v : Vec) (hc : CenterAt o dt c cv) (hx : x = o.x (-dt) - c) (hv : v = o.v (-dt) - cv)
    (hL : crs x v ≠ 0) (hr : Regular (crs x v)) (hs : Smooth o.rtpot (-dt) (len x))
    (ha : ∀ s > 0, along o.rtpot x φ (-dt) s = o.rtpot.val s 0 0 (-dt)) (hM : 0 < o.mass (-dt))
    (hp : 0 < deriv (along o.rtpot x φ (-dt)) (len x) / len x - deriv (deriv (along o.rtpot x φ (-dt))) (len x)) (h0 : 0 < p 0) :
    ∃ rt, IsTidal (along o.rtpot x φ (-dt)) (len x) (o.mass (-dt)) rt ∧ ∃ W, W = p 3 * √(2 * o.mass (-dt) / (p 0 * rt)) ∧
      o.particle (o.chen24 p leading) dt
        = (o.x (-dt) + (if leading then -1 else 1 : ℝ) • offset x v (p 0 * rt) (p 1) (p 2), o.v (-dt) + (if leading then -1 else 1 : ℝ) • offset x v W (p 4) (p 5)) ∧
      len ((o.particle (o.chen24 p leading) dt).1 - o.x (-dt)) = p 0 * rt ∧
      len ((o.particle (o.chen24 p leading) dt).2 - o.v (-dt)) ^ 2 / 2 = p 3 ^ 2 * (o.mass (-dt) / len ((o.particle (o.chen24 p leading) dt).1 - o.x (-dt))) := by
  obtain ⟨h1, h2⟩ := rel_eq hc hx hv
  have hf := framed_regular hL hr
  have ht := tidal (x_ne hL) hs ha hM.le hp
  set rt := o.calcRtide (len x) 0 0 dt with hrt
  have hrt0 : 0 < rt := by
    rcases ht.1.lt_or_eq with h | h
    · exact h
    · have := ht.2
      rw [← h] at this
      simp at this
      linarith
  have he : o.particle (o.chen24 p leading) dt
        = (o.x (-dt) + (if leading then -1 else 1 : ℝ) • offset x v (p 0 * rt) (p 1) (p 2),
          o.v (-dt) + (if leading then -1 else 1 : ℝ) • offset x v (p 3 * √(2 * o.mass (-dt) / (p 0 * rt))) (p 4) (p 5)) := by
    rw [chen_eq o p leading dt h1 hL hf, h2, ← hrt]
    have hx' : o.x (-dt) = x + c := by rw [hx]; abel
    have hv' : o.v (-dt) = v + cv := by rw [hv]; abel
    rw [hx', hv']
    refine Prod.ext ?_ ?_ <;> (simp only; abel)
  have hl : ∀ D a b, len ((if leading then -1 else 1 : ℝ) • offset x v D a b) ^ 2 = D ^ 2 := by
    intro D a b
    have h3 : ∀ u : Vec, len ((if leading then -1 else 1 : ℝ) • u) ^ 2 = len u ^ 2 := by
      intro u
      rw [len_sq, len_sq]
      cases leading <;> simp
    rw [h3, offset, hf.norm]
    linear_combination D ^ 2 * cos b ^ 2 * sin_sq_add_cos_sq a + D ^ 2 * sin_sq_add_cos_sq b
  have hl1 : len ((o.particle (o.chen24 p leading) dt).1 - o.x (-dt)) = p 0 * rt := by
    rw [he]
    simp only [add_sub_cancel_left]
    have := hl (p 0 * rt) (p 1) (p 2)
    exact (sq_eq_sq₀ (sqrt_nonneg _) (by positivity)).1 this
  refine ⟨rt, ht, _, rfl, he, hl1, ?_⟩
  rw [hl1, he]
  simp only [add_sub_cancel_left]
  rw [hl, mul_pow, sq_sqrt (by positivity)]
  field_simp

/-- Retrograde orbits in the plane get a frame that is not a rotation of the axes: the second axis is opposite to the motion, so that the particles of `fardal15spraydf` have the wrong sign
of the offsets of tangential velocity and of azimuth. -/
theorem C98_retrograde_fails (o : Obj) (k : Fin 6 → ℝ) (dt φ : ℝ) (c cv x v : Vec) (hc : CenterAt o dt c cv) (hx : x = o.x (-dt) - c) (hv : v = o.v (-dt) - cv)
    (hr : Retrograde (crs x v)) (hs : Smooth o.rtpot (-dt) (len x))
    (ha : ∀ s > 0, along o.rtpot x φ (-dt) s = o.rtpot.val s 0 0 (-dt)) (hM : 0 ≤ o.mass (-dt))
    (hF : 0 ≤ deriv (along o.rtpot x φ (-dt)) (len x))
    (hp : 0 < deriv (along o.rtpot x φ (-dt)) (len x) / len x - deriv (deriv (along o.rtpot x φ (-dt))) (len x)) :
    ∃ rt vc, IsTidal (along o.rtpot x φ (-dt)) (len x) (o.mass (-dt)) rt ∧ IsCirc (along o.rtpot x φ (-dt)) (len x) vc ∧
      o.particle (o.fardal15 k) dt = ((fardal x v rt vc ![k 0, k 1, -k 2, k 3, k 4, -k 5]).1 + c, (fardal x v rt vc ![k 0, k 1, -k 2, k 3, k 4, -k 5]).2 + cv) := by
  have hL : crs x v ≠ 0 := fun hz => by have := hr.2.2; rw [hz] at this; simp at this
  obtain ⟨h1, h2⟩ := rel_eq hc hx hv
  refine ⟨_, _, tidal (x_ne hL) hs ha hM hp, circ (x_ne hL) hs ha hF, ?_⟩
  rw [fardal_eq o k dt h1 hL (framed_retro hr), h2]
  simp

/-- The hypotheses are met by a progenitor at `(0, 3, 4)` in a spherical potential: the tidal radius is `5` for the mass `10`. -/
example (k : Fin 6 → ℝ) (dt : ℝ) :
    (fixed ![0, 3, 4] ![1, 0, 0] (Spherical.pot logR) 10).particle ((fixed ![0, 3, 4] ![1, 0, 0] (Spherical.pot logR) 10).fardal15 k) dt
      = ((fardal ![0, 3, 4] ![1, 0, 0] 5 1 k).1 + 0, (fardal ![0, 3, 4] ![1, 0, 0] 5 1 k).2 + 0) := by
  have hx : (![0, 3, 4] : Vec) ≠ 0 := fun h => by simpa using congrFun h 1
  have hl : len ![0, 3, 4] = 5 := by
    rw [len, show (5 : ℝ) = √(5 ^ 2) by rw [sqrt_sq (by norm_num)]]
    congr 1
    simp
    norm_num
  have hc : crs ![0, 3, 4] ![1, 0, 0] = ![0, 4, -3] := by
    ext i
    fin_cases i <;> simp [crs]
  have hlc : len ![0, 4, -3] = 5 := by
    rw [len, show (5 : ℝ) = √(5 ^ 2) by rw [sqrt_sq (by norm_num)]]
    congr 1
    simp
    norm_num
  obtain ⟨rt, vc, h1, h2, h3⟩ := C98_fardal_partial (fixed ![0, 3, 4] ![1, 0, 0] (Spherical.pot logR) 10) k dt 0 0 0 ![0, 3, 4] ![1, 0, 0]
    (Or.inl ⟨rfl, rfl, rfl⟩) (by simp [fixed]) (by simp [fixed]) (by rw [hc]; exact fun h => by simpa using congrFun h 1)
    (Or.inl (by rw [hc, hlc]; constructor <;> (simp; norm_num))) (log_smooth (len_pos hx) _) (fun s hs => along_spherical logR _ hx 0 _ s hs) (by simp [fixed])
    (by rw [show (fixed ![0, 3, 4] ![1, 0, 0] (Spherical.pot logR) 10).rtpot = Spherical.pot logR from rfl, (log_along hx 0 _).1]; have := len_pos hx; positivity)
    (by
      rw [show (fixed ![0, 3, 4] ![1, 0, 0] (Spherical.pot logR) 10).rtpot = Spherical.pot logR from rfl, (log_along hx 0 _).1, (log_along hx 0 _).2, hl]; norm_num)
  obtain ⟨h4, h5⟩ := (log_tidal hx 0 _ _ rt).1 h1
  have e1 : rt = 5 := by
    rw [hl] at h5
    have : (rt - 5) * (rt ^ 2 + 5 * rt + 25) = 0 := by
      simp only [fixed] at h5
      linarith
    rcases mul_eq_zero.1 this with h | h
    · linarith
    · nlinarith
  have e2 := (log_circ hx 0 _ vc).1 h2
  rw [h3, e1, e2]

/-- The same progenitor, with the mean of the distribution of Chen et al. -/
example (dt : ℝ) : len (((fixed ![0, 3, 4] ![1, 0, 0] (Spherical.pot logR) 10).particle
    ((fixed ![0, 3, 4] ![1, 0, 0] (Spherical.pot logR) 10).chen24 ![1.6, -0.523599, 0, 1, 0.349066, 0] true) dt).1 - ![0, 3, 4]) = 8 := by
  have hx : (![0, 3, 4] : Vec) ≠ 0 := fun h => by simpa using congrFun h 1
  have hl : len ![0, 3, 4] = 5 := by
    rw [len, show (5 : ℝ) = √(5 ^ 2) by rw [sqrt_sq (by norm_num)]]
    congr 1
    simp
    norm_num
  have hc : crs ![0, 3, 4] ![1, 0, 0] = ![0, 4, -3] := by
    ext i
    fin_cases i <;> simp [crs]
  have hlc : len ![0, 4, -3] = 5 := by
    rw [len, show (5 : ℝ) = √(5 ^ 2) by rw [sqrt_sq (by norm_num)]]
    congr 1
    simp
    norm_num
  obtain ⟨rt, h1, W, -, -, h3, -⟩ := C98_chen24_partial (fixed ![0, 3, 4] ![1, 0, 0] (Spherical.pot logR) 10) ![1.6, -0.523599, 0, 1, 0.349066, 0] true dt 0 0 0 ![0, 3, 4] ![1, 0, 0]
    (Or.inl ⟨rfl, rfl, rfl⟩) (by simp [fixed]) (by simp [fixed]) (by rw [hc]; exact fun h => by simpa using congrFun h 1)
    (Or.inl (by rw [hc, hlc]; constructor <;> (simp; norm_num))) (log_smooth (len_pos hx) _) (fun s hs => along_spherical logR _ hx 0 _ s hs) (by simp [fixed])
    (by
      rw [show (fixed ![0, 3, 4] ![1, 0, 0] (Spherical.pot logR) 10).rtpot = Spherical.pot logR from rfl, (log_along hx 0 _).1, (log_along hx 0 _).2, hl]; norm_num)
    (by norm_num)
  obtain ⟨h4, h5⟩ := (log_tidal hx 0 _ _ rt).1 h1
  have e1 : rt = 5 := by
    rw [hl] at h5
    have : (rt - 5) * (rt ^ 2 + 5 * rt + 25) = 0 := by
      simp only [fixed] at h5
      linarith
    rcases mul_eq_zero.1 this with h | h
    · linarith
    · nlinarith
  rw [e1] at h3
  refine h3.trans ?_
  norm_num

/-- A progenitor in a retrograde orbit in the plane for which the particle is not where the rule puts it, whatever the tidal radius and the circular velocity. -/
theorem C98_retrograde_sign_fails : ∃ (o : Obj) (k : Fin 6 → ℝ) (dt φ : ℝ), o.center = none ∧ crs (o.x (-dt)) (o.v (-dt)) ≠ 0 ∧
    Smooth o.rtpot (-dt) (len (o.x (-dt))) ∧ (∀ s > 0, along o.rtpot (o.x (-dt)) φ (-dt) s = o.rtpot.val s 0 0 (-dt)) ∧ 0 < o.mass (-dt) ∧
    ∀ rt vc, IsTidal (along o.rtpot (o.x (-dt)) φ (-dt)) (len (o.x (-dt))) (o.mass (-dt)) rt →
      IsCirc (along o.rtpot (o.x (-dt)) φ (-dt)) (len (o.x (-dt))) vc →
      o.particle (o.fardal15 k) dt ≠ fardal (o.x (-dt)) (o.v (-dt)) rt vc k := by
  have hx : (![1, 0, 0] : Vec) ≠ 0 := fun h => by simpa using congrFun h 0
  have hl : len ![1, 0, 0] = 1 := by simp [len]
  have hc : crs ![1, 0, 0] ![0, -1, 0] = ![0, 0, -1] := by
    ext i
    fin_cases i <;> simp [crs]
  have hlc : len ![0, 0, -1] = 1 := by simp [len]
  refine ⟨fixed ![1, 0, 0] ![0, -1, 0] (Spherical.pot logR) 2, ![0, 0, 1, 0, 0, 0], 0, 0, rfl, ?_, log_smooth (len_pos hx) _,
    fun s hs => along_spherical logR _ hx 0 _ s hs, by simp [fixed], ?_⟩
  · simp only [fixed, hc]
    exact fun h => by simpa using congrFun h 2
  intro rt vc h1 h2 he
  obtain ⟨rt', vc', g1, g2, g3⟩ := C98_retrograde_fails (fixed ![1, 0, 0] ![0, -1, 0] (Spherical.pot logR) 2) ![0, 0, 1, 0, 0, 0] 0 0 0 0 ![1, 0, 0] ![0, -1, 0]
    (Or.inl ⟨rfl, rfl, rfl⟩) (by simp [fixed]) (by simp [fixed]) (by rw [hc]; simp [Retrograde]) (log_smooth (len_pos hx) _)
    (fun s hs => along_spherical logR _ hx 0 _ s hs) (by simp [fixed])
    (by rw [show (fixed ![1, 0, 0] ![0, -1, 0] (Spherical.pot logR) 2).rtpot = Spherical.pot logR from rfl, (log_along hx 0 _).1]; have := len_pos hx; positivity)
    (by
      rw [show (fixed ![1, 0, 0] ![0, -1, 0] (Spherical.pot logR) 2).rtpot = Spherical.pot logR from rfl, (log_along hx 0 _).1, (log_along hx 0 _).2, hl]; norm_num)
  have cub : ∀ u : ℝ, 0 ≤ u ∧ u ^ 3 * 2 = 2 * len ![1, 0, 0] ^ 2 → u = 1 := by
    rintro u ⟨h4, h5⟩
    rw [hl] at h5
    have : (u - 1) * (u ^ 2 + u + 1) = 0 := by linarith
    rcases mul_eq_zero.1 this with h | h
    · linarith
    · nlinarith
  have a1 := cub rt ((log_tidal hx 0 _ _ rt).1 h1)
  have a2 := cub rt' ((log_tidal hx 0 _ _ rt').1 g1)
  have a3 := (log_circ hx 0 _ vc).1 h2
  have a4 := (log_circ hx 0 _ vc').1 g2
  rw [g3, a1, a2, a3, a4] at he
  have f1 : e1 ![1, 0, 0] = ![1, 0, 0] := by
    ext i
    simp only [e1, hl, div_one]
  have f3 : e3 ![1, 0, 0] ![0, -1, 0] = ![0, 0, -1] := by
    ext i
    simp only [e3, hc, hlc, div_one]
  have f2 : e2 ![1, 0, 0] ![0, -1, 0] = ![0, -1, 0] := by
    rw [e2, f1, f3]
    ext i
    fin_cases i <;> simp [crs]
  have h := congrFun (congrArg Prod.snd he) 1
  simp [fixed, fardal, comb, f1, f2, f3, ip, hl] at h
  norm_num at h

/-- In a flattened potential the tidal radius is not that at the position of the progenitor: at `(0, 0, 2)` in a logarithmic halo with `q = 1 / 2` a particle that the rule puts one tidal radius
farther than the progenitor is at distance `3`, but the tidal radius is not `1`. -/
theorem C98_tide_fails : ∃ o : Obj, o.center = none ∧ o.rtpot = LogarithmicHalo.pot (1 / 2) 1 none ∧ 0 < o.mass 0 ∧ o.x 0 = ![0, 0, 2] ∧
    Regular (crs (o.x 0) (o.v 0)) ∧ len (o.particle (o.fardal15 ![1, 0, 0, 0, 0, 0]) 0).1 = 3 ∧
    ¬IsTidal (along o.rtpot (o.x 0) 0 0) 2 (o.mass 0) 1 := by
  have hx : (![0, 0, 2] : Vec) ≠ 0 := fun h => by simpa using congrFun h 2
  have hl : len ![0, 0, 2] = 2 := by
    rw [len, show (2 : ℝ) = √(2 ^ 2) by rw [sqrt_sq (by norm_num)]]
    congr 1
    simp
  have hc : crs ![0, 0, 2] ![0, 1, 0] = ![-2, 0, 0] := by
    ext i
    fin_cases i <;> simp [crs]
  have hL : crs ![0, 0, 2] ![0, 1, 0] ≠ 0 := by rw [hc]; exact fun h => by simpa using congrFun h 0
  have hr : Regular (crs ![0, 0, 2] ![0, 1, 0]) := by
    rw [hc]
    left
    simp
    norm_num
  refine ⟨fixed ![0, 0, 2] ![0, 1, 0] (LogarithmicHalo.pot (1 / 2) 1 none) (8 / 25), rfl, rfl, by simp [fixed], rfl, hr, ?_, ?_⟩
  · have hf := framed_regular hL hr
    rw [fardal_eq (σ := 1) _ _ _ (x := ![0, 0, 2]) (v := ![0, 1, 0]) (by simp [Obj.rel, fixed]) hL hf, rtide_eq _ (len_pos hx), hl]
    have ht : ((fixed ![0, 0, 2] ![0, 1, 0] (LogarithmicHalo.pot (1 / 2) 1 none) (8 / 25)).mass (-0) /
        (-(fixed ![0, 0, 2] ![0, 1, 0] (LogarithmicHalo.pot (1 / 2) 1 none) (8 / 25)).rtpot.Rforce 2 0 0 (-0) / 2
          - (fixed ![0, 0, 2] ![0, 1, 0] (LogarithmicHalo.pot (1 / 2) 1 none) (8 / 25)).rtpot.R2deriv 2 0 0 (-0))) ^ (1 / 3 : ℝ) = 1 := by
      simp only [fixed, LogarithmicHalo.pot, LogarithmicHalo.Rforce, LogarithmicHalo.R2deriv]
      norm_num
    rw [ht]
    have hz : (ctr (fixed ![0, 0, 2] ![0, 1, 0] (LogarithmicHalo.pot (1 / 2) 1 none) (8 / 25)) 0).1 = 0 := rfl
    rw [hz, add_zero]
    simp only [fardal]
    have hn := hf.norm 3 0 0
    have : len (comb ![0, 0, 2] ![0, 1, 0] 3 0 0) = 3 := by
      have h0 : (0 : ℝ) ≤ len (comb ![0, 0, 2] ![0, 1, 0] 3 0 0) := sqrt_nonneg _
      nlinarith
    simpa [hl, show (2 : ℝ) + 1 = 3 by norm_num] using this
  · have ha : along (LogarithmicHalo.pot (1 / 2) 1 none) ![0, 0, 2] 0 0 = fun s => 1 / 2 * log (4 * s ^ 2 + 1) := by
      ext s
      simp only [along, LogarithmicHalo.pot, LogarithmicHalo.evaluate, hl]
      simp
      ring_nf
    have d1 : ∀ s : ℝ, HasDerivAt (fun s : ℝ => 1 / 2 * log (4 * s ^ 2 + 1)) (4 * s / (4 * s ^ 2 + 1)) s := by
      intro s
      have := (((((hasDerivAt_id s).pow 2).const_mul 4).add_const 1).log (by simp; positivity)).const_mul (1 / 2 : ℝ)
      refine this.congr_deriv ?_
      simp
      ring
    have e1 : deriv (fun s : ℝ => 1 / 2 * log (4 * s ^ 2 + 1)) = fun s => 4 * s / (4 * s ^ 2 + 1) := funext fun s => (d1 s).deriv
    have d2 : HasDerivAt (fun s : ℝ => 4 * s / (4 * s ^ 2 + 1)) (-60 / 289) 2 := by
      have := ((hasDerivAt_id (2 : ℝ)).const_mul 4).div ((((hasDerivAt_id (2 : ℝ)).pow 2).const_mul 4).add_const 1) (by simp; norm_num)
      refine this.congr_deriv ?_
      simp
      norm_num
    rintro ⟨-, h⟩
    simp only [fixed] at h
    rw [ha, e1, d2.deriv] at h
    norm_num at h

/-- The vertical offset of `fardal15spraydf` is a number, not a length: the same progenitor in units of length half as long does not have its particle at twice the position. -/
theorem C98_units_fails : ∃ (o o' : Obj) (k : Fin 6 → ℝ), o.center = none ∧ o'.center = none ∧ o.rtpot = Spherical.pot logR ∧ o'.rtpot = Spherical.pot logR ∧
    (∀ t, o'.x t = 2 • o.x t) ∧ (∀ t, o'.v t = o.v t) ∧ (∀ t, o'.mass t = 2 * o.mass t) ∧ (o'.particle (o'.fardal15 k) 0).1 ≠ 2 • (o.particle (o.fardal15 k) 0).1 := by
  have main : ∀ a M : ℝ, 0 < a → M = 2 * a → (fixed ![a, 0, 0] ![0, 1, 0] (Spherical.pot logR) M).particle
      ((fixed ![a, 0, 0] ![0, 1, 0] (Spherical.pot logR) M).fardal15 ![0, 0, 0, 1, 0, 0]) 0 = (![a, 0, 1], ![0, 1, 0]) := by
    intro a M ha hM
    have hx : (![a, 0, 0] : Vec) ≠ 0 := fun h => by simpa [ha.ne'] using congrFun h 0
    have hl : len ![a, 0, 0] = a := by simp [len, sqrt_sq ha.le]
    have hc : crs ![a, 0, 0] ![0, 1, 0] = ![0, 0, a] := by
      ext i
      fin_cases i <;> simp [crs]
    have hlc : len ![0, 0, a] = a := by simp [len, sqrt_sq ha.le]
    have hL : crs ![a, 0, 0] ![0, 1, 0] ≠ 0 := by rw [hc]; exact fun h => by simpa [ha.ne'] using congrFun h 2
    have hr : Regular (crs ![a, 0, 0] ![0, 1, 0]) := by
      rw [hc]
      right
      simpa using ha
    have hf := framed_regular hL hr
    have f1 : e1 ![a, 0, 0] = ![1, 0, 0] := by
      ext i
      simp only [e1, hl]
      fin_cases i <;> simp [ha.ne']
    have f3 : e3 ![a, 0, 0] ![0, 1, 0] = ![0, 0, 1] := by
      ext i
      simp only [e3, hc, hlc]
      fin_cases i <;> simp [ha.ne']
    have f2 : e2 ![a, 0, 0] ![0, 1, 0] = ![0, 1, 0] := by
      rw [e2, f1, f3]
      ext i
      fin_cases i <;> simp [crs]
    rw [fardal_eq (σ := 1) _ _ _ (x := ![a, 0, 0]) (v := ![0, 1, 0]) (by simp [Obj.rel, fixed]) hL hf, rtide_eq _ (len_pos hx), hl]
    have ht : ((fixed ![a, 0, 0] ![0, 1, 0] (Spherical.pot logR) M).mass (-0) /
        (-(fixed ![a, 0, 0] ![0, 1, 0] (Spherical.pot logR) M).rtpot.Rforce a 0 0 (-0) / a
          - (fixed ![a, 0, 0] ![0, 1, 0] (Spherical.pot logR) M).rtpot.R2deriv a 0 0 (-0))) ^ (1 / 3 : ℝ) = a := by
      rw [show (fixed ![a, 0, 0] ![0, 1, 0] (Spherical.pot logR) M).rtpot = Spherical.pot logR from rfl, log_force ha, log_d2 ha]
      rw [show (fixed ![a, 0, 0] ![0, 1, 0] (Spherical.pot logR) M).mass (-0) / (- -(1 / a) / a - -(1 / a ^ 2)) = a ^ (3 : ℝ) by
        simp only [fixed]
        rw [show (3 : ℝ) = ((3 : ℕ) : ℝ) by norm_num, rpow_natCast, hM]
        field_simp
        norm_num]
      rw [← rpow_mul ha.le]
      norm_num
    rw [ht]
    simp only [fardal, comb, f1, f2, f3, ip, hl, ctr, fixed]
    refine Prod.ext ?_ ?_ <;> (ext i; fin_cases i <;> simp [ha.ne', comb, f1, f2, f3])
  refine ⟨fixed ![1, 0, 0] ![0, 1, 0] (Spherical.pot logR) 2, fixed ![2, 0, 0] ![0, 1, 0] (Spherical.pot logR) 4, ![0, 0, 0, 1, 0, 0], rfl, rfl, rfl, rfl, ?_, fun _ => rfl, ?_, ?_⟩
  · intro t
    ext i
    fin_cases i <;> simp [fixed]
  · intro t
    simp only [fixed]
    norm_num
  · rw [main 1 2 (by norm_num) (by norm_num), main 2 4 (by norm_num) (by norm_num)]
    intro h
    have := congrFun h 2
    simp at this

/-- The cylindrical coordinates that come out are those of the particle; without `stripping_pdf` it is stripped between the start of the disruption and the present. -/
theorem C98_output (q : Vec × Vec) (tdisrupt u : ℝ) (ht : 0 ≤ tdisrupt) (hu : 0 ≤ u ∧ u < 1) :
    cyl q 0 * cos (cyl q 5) = q.1 0 ∧ cyl q 0 * sin (cyl q 5) = q.1 1 ∧ cyl q 3 = q.1 2 ∧ 0 ≤ cyl q 0 ∧
      cyl q 1 * cos (cyl q 5) - cyl q 2 * sin (cyl q 5) = q.2 0 ∧ cyl q 1 * sin (cyl q 5) + cyl q 2 * cos (cyl q 5) = q.2 1 ∧ cyl q 4 = q.2 2 ∧
      0 ≤ stripTime tdisrupt u ∧ stripTime tdisrupt u ≤ tdisrupt := by
  have h1 := Coords.polar_cos (q.1 0) (q.1 1)
  have h2 := Coords.polar_sin (q.1 0) (q.1 1)
  have h3 := sin_sq_add_cos_sq (Coords.atan2 (q.1 1) (q.1 0))
  refine ⟨?_, ?_, ?_, ?_, ?_, ?_, ?_, mul_nonneg hu.1 ht, mul_le_of_le_one_left ht hu.2.le⟩
  · simpa [cyl, Coords.rect_to_cyl] using h1
  · simpa [cyl, Coords.rect_to_cyl] using h2
  · simp [cyl, Coords.rect_to_cyl]
  · simp [cyl, Coords.rect_to_cyl]
  · simp [cyl, Coords.rect_to_cyl, Coords.rect_to_cyl_vec_cyl]
    linear_combination q.2 0 * h3
  · simp [cyl, Coords.rect_to_cyl, Coords.rect_to_cyl_vec_cyl]
    linear_combination q.2 1 * h3
  · simp [cyl, Coords.rect_to_cyl, Coords.rect_to_cyl_vec_cyl]

example : 0 ≤ stripTime 5 (1 / 2) ∧ stripTime 5 (1 / 2) ≤ 5 :=
  (C98_output (![1, 2, 3], ![4, 5, 6]) 5 (1 / 2) (by norm_num) (by norm_num)).2.2.2.2.2.2.2

/-- The means of the parameters of Fardal et al. have opposite signs in the two tails, and the scatter is the same. -/
theorem C98_mean (m s g : Fin 6 → ℝ) (i : Fin 6) :
    fardalK m s true 0 i = -m i ∧ fardalK m s false 0 i = m i ∧ fardalK m s true g i - fardalK m s true 0 i = g i * s i ∧
      fardalK m s false g i - fardalK m s false 0 i = g i * s i := by
  simp [fardalK]

example : fardalK ![2, 0, 0.3, 0, 0, 0] ![0.4, 0, 0.4, 0.5, 0.5, 0] true 0 0 = -2 :=
  (C98_mean _ _ 0 0).1

/-- The two tails share the sample: all particles are drawn, halves differ by one at most, and anything that is not a tail is refused. -/
theorem C98_tails (leading : Option Bool) (tail : Option String) (t : Option String) (n : ℕ) :
    (leading ≠ none ∧ tail ≠ none → initTail leading tail = .error "ValueError") ∧
    (∀ l, initTail (some l) none = .ok (if l then "leading" else "trailing")) ∧ initTail none none = .ok "leading" ∧
    ∀ self, initTail leading tail = .ok self →
      (self = "leading" ∨ self = "trailing" ∨ self = "both") ∧
      ((∃ a b, split self t n = .ok (a, b) ∧ a + b = n ∧ (t.getD self = "leading" → b = 0) ∧ (t.getD self = "trailing" → a = 0) ∧
          (t.getD self = "both" → a ≤ b ∧ b ≤ a + 1)) ∨
        (split self t n = .error "ValueError" ∧ ∃ s, t = some s ∧ s ≠ "leading" ∧ s ≠ "trailing" ∧ s ≠ "both")) := by
  refine ⟨?_, ?_, rfl, ?_⟩
  · rintro ⟨h1, h2⟩
    obtain ⟨a, rfl⟩ := Option.ne_none_iff_exists'.1 h1
    obtain ⟨b, rfl⟩ := Option.ne_none_iff_exists'.1 h2
    rfl
  · intro l
    rfl
  · intro self h
    have hs : self = "leading" ∨ self = "trailing" ∨ self = "both" := by
      unfold initTail at h
      split at h
      · simp at h
      · split_ifs at h <;> (injection h with h; subst h; simp)
      · injection h with h
        subst h
        simp
      · split_ifs at h with h'
        injection h with h
        subst h
        exact h'
    refine ⟨hs, ?_⟩
    by_cases ht : t.getD self = "leading" ∨ t.getD self = "trailing" ∨ t.getD self = "both"
    · left
      rcases ht with ht | ht | ht
      · exact ⟨n, 0, by simp [split, ht], by simp, by simp, by simp [ht], by simp [ht]⟩
      · exact ⟨0, n, by simp [split, ht], by simp, by simp [ht], by simp, by simp [ht]⟩
      · exact ⟨n / 2, n - n / 2, by simp [split, ht], by omega, by simp [ht], by simp [ht], fun _ => by omega⟩
    · right
      refine ⟨by simp only [split]; rw [if_pos ht], ?_⟩
      cases t with
      | none => exact absurd hs (by simpa using ht)
      | some s =>
        simp only [Option.getD_some, not_or] at ht
        exact ⟨s, rfl, ht.1, ht.2.1, ht.2.2⟩

example : split "leading" (some "both") 7 = .ok (3, 4) := by simp [split]

end Verif
