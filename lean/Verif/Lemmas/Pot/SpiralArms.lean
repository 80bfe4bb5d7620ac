import Verif.Model.Pot.SpiralArms
import Verif.Util.PotLemmas
import Verif.Util.Deriv

set_option autoImplicit false

noncomputable section
namespace Verif.SpiralArms
open Real

theorem sech_rpow (u b : ℝ) : (1 / cosh u) ^ b = 1 / cosh u ^ b := by
  rw [one_div, inv_rpow (cosh_pos u).le, one_div]
theorem log_sech (u : ℝ) : log (1 / cosh u) = -log (cosh u) := by rw [one_div, log_inv]

theorem hd_logcosh {f : ℝ → ℝ} {f' a : ℝ} (hf : HasDerivAt f f' a) :
    HasDerivAt (fun x => log (cosh (f x))) (tanh (f a) * f') a := by
  refine (hd_log (hd_cosh hf) (cosh_pos _).ne').congr_deriv ?_
  rw [tanh_eq_sinh_div_cosh]; ring

theorem hd_coshpow {f g : ℝ → ℝ} {f' g' a : ℝ} (hf : HasDerivAt f f' a) (hg : HasDerivAt g g' a) :
    HasDerivAt (fun x => cosh (f x) ^ g x)
      (cosh (f a) ^ g a * (g a * tanh (f a) * f' + g' * log (cosh (f a)))) a := by
  refine ((hd_cosh hf).rpow hg (cosh_pos _)).congr_deriv ?_
  have h := (cosh_pos (f a)).ne'
  rw [rpow_sub_one h, tanh_eq_sinh_div_cosh]
  field_simp
  try ring

/-! One harmonic, as a function of the values of `K`, `B`, `D`, their derivatives, the phase, the exponential and
`cosh^B`, `log cosh` and `tanh`. -/

section alg
variable (C n N H Rs K k k2 B b b2 D d d2 dg d2g c s E W L T z : ℝ)

def aV : ℝ := -H * E * (C * c / (K * D * W))
def aR : ℝ :=
  -H * E * (C / (D * W)) * (n * dg / K * s + c * (z * T * (k / K - b / B) + b / K * L + k / K ^ 2 + d / D / K) + c / K / Rs)
def az : ℝ := -H * E * (C * c * T / (D * W))
def ap : ℝ := -H * E * (N * n * C * s / (D * K * W))
def azz : ℝ := -H * E * (C * K * c / (D * W) * ((T ^ 2 - 1) / B + T ^ 2))
def app : ℝ := H * E * (C * N ^ 2 * n ^ 2 * c / (D * K * W))
def apz : ℝ := -H * E * (C * n * N * s * T / (D * W))
def aRp : ℝ :=
  -H * E * (C * n * N / (D * W)
    * (-n * dg / K * c + s * (z * T * (k / K - b / B) + 1 / K * (b * L + k / K + d / D + 1 / Rs))))
def aRz : ℝ :=
  -H * E * (C / (D * W)
    * (K * T * (n * dg / K * s + c * (z * T * (k / K - b / B) + b / K * L + k / K ^ 2 + d / D / K))
      - c * (z * K / B * (k / K - b / B) * (1 - T ^ 2) + T * (k / K - b / B) + b / B * T - T / Rs)))
def aRR : ℝ :=
  -H * E / Rs * (C / (D * W)
    * ((n * dg / K * s + c * (z * T * (k / K - b / B) + b / K * L + k / K ^ 2 + d / D / K))
      - (Rs
          * (1 / K * ((z * T * (b / B * K - k) - L * b) - d / D)
              * (n * dg * s + c * (z * T * K * (k / K - b / B) + b * L + k / K + d / D))
            + (n * (s * (d2g / K - dg / K ^ 2 * k) + dg ^ 2 / K * c * n)
              + z * (-s * n * dg * T * (k / K - b / B)
                + c * (z * (k / B - b / B ^ 2 * K) * (1 - T ^ 2) * (k / K - b / B)
                  + T * (k2 / K - (k / K) ^ 2 - b2 / B + (b / B) ^ 2)))
              + (c * (b / K * (z * T) * (k / B - b / B ^ 2 * K) + (b2 / K - b * k / K ^ 2) * L)
                - b / K * L * s * n * dg)
              + ((c * (k2 / K ^ 2 - 2 * k ^ 2 / K ^ 3) - k / K ^ 2 * s * n * dg)
                + (c * (d2 / D / K - (d / D) ^ 2 / K - d / D / K ^ 2 * k) - s * n * dg * d / D / K))))
        - 1 / K * (c / Rs + (c * ((d * K + D * k) / (D * K) - (z * T * (b / B * K - k) - L * b)) + s * n * dg)))))
end alg

/-! The derivatives of these. -/

section der
variable {C n N H Rs : ℝ} {K k B b D d g dg e : ℝ → ℝ} {k2 b2 d2 d2g R z φ : ℝ}

theorem aV_R (hRs : Rs ≠ 0) (hK : HasDerivAt K (k R) R) (hB : HasDerivAt B (b R) R) (hD : HasDerivAt D (d R) R)
    (hg : HasDerivAt g (dg R) R) (he : HasDerivAt e (-e R / Rs) R) (K0 : K R ≠ 0) (B0 : B R ≠ 0) (D0 : D R ≠ 0) :
    HasDerivAt (fun R => aV C H (K R) (D R) (cos (n * g R)) (e R) (cosh (z * K R / B R) ^ B R))
      (-aR C n H Rs (K R) (k R) (B R) (b R) (D R) (d R) (dg R) (cos (n * g R)) (sin (n * g R)) (e R)
        (cosh (z * K R / B R) ^ B R) (log (cosh (z * K R / B R))) (tanh (z * K R / B R)) z) R := by
  have hu := hd_div (hd_const_mul z hK) hB B0
  have hW := hd_coshpow hu hB
  have W0 : cosh (z * K R / B R) ^ B R ≠ 0 := (rpow_pos_of_pos (cosh_pos _) _).ne'
  refine (hd_mul (hd_const_mul (-H) he)
    (hd_div (hd_const_mul C (hd_cos (hd_const_mul n hg))) (hd_mul (hd_mul hK hD) hW)
      (mul_ne_zero (mul_ne_zero K0 D0) W0))).congr_deriv ?_
  dsimp only [aR]
  generalize cosh (z * K R / B R) ^ B R = W at *
  generalize log (cosh (z * K R / B R)) = L
  generalize tanh (z * K R / B R) = T
  generalize K R = K, B R = B, D R = D, k R = k, b R = b, d R = d, dg R = dg, e R = e, cos (n * g R) = c, sin (n * g R) = s at *
  field_simp
  ring

theorem aR_R (hRs : Rs ≠ 0) (hK : HasDerivAt K (k R) R) (hB : HasDerivAt B (b R) R) (hD : HasDerivAt D (d R) R)
    (hk : HasDerivAt k k2 R) (hb : HasDerivAt b b2 R) (hd : HasDerivAt d d2 R) (hdg : HasDerivAt dg d2g R)
    (hg : HasDerivAt g (dg R) R) (he : HasDerivAt e (-e R / Rs) R) (K0 : K R ≠ 0) (B0 : B R ≠ 0) (D0 : D R ≠ 0) :
    HasDerivAt (fun R => aR C n H Rs (K R) (k R) (B R) (b R) (D R) (d R) (dg R) (cos (n * g R)) (sin (n * g R)) (e R)
        (cosh (z * K R / B R) ^ B R) (log (cosh (z * K R / B R))) (tanh (z * K R / B R)) z)
      (-aRR C n H Rs (K R) (k R) k2 (B R) (b R) b2 (D R) (d R) d2 (dg R) d2g (cos (n * g R)) (sin (n * g R)) (e R)
        (cosh (z * K R / B R) ^ B R) (log (cosh (z * K R / B R))) (tanh (z * K R / B R)) z) R := by
  have hu := hd_div (hd_const_mul z hK) hB B0
  have hW := hd_coshpow hu hB
  have hL := hd_logcosh hu
  have hT := hd_tanh hu
  have W0 : cosh (z * K R / B R) ^ B R ≠ 0 := (rpow_pos_of_pos (cosh_pos _) _).ne'
  have hc := hd_cos (hd_const_mul n hg)
  have hs := hd_sin (hd_const_mul n hg)
  have h1 := hd_div (hd_const C R) (hd_mul hD hW) (mul_ne_zero D0 W0)
  have h2 := hd_mul (hd_div (hd_const_mul n hdg) hK K0) hs
  have h3 := hd_mul (hd_const_mul z hT) (hd_sub (hd_div hk hK K0) (hd_div hb hB B0))
  have h4 := hd_mul (hd_div hb hK K0) hL
  have h5 := hd_div hk (hd_pow 2 hK) (pow_ne_zero 2 K0)
  have h6 := hd_div (hd_div hd hD D0) hK K0
  have h7 := hd_div_const Rs (hd_div hc hK K0)
  refine (hd_mul (hd_mul (hd_const_mul (-H) he) h1)
    (hd_add (hd_add h2 (hd_mul hc (hd_add (hd_add (hd_add h3 h4) h5) h6))) h7)).congr_deriv ?_
  dsimp only [aRR]
  clear hu hW hL hT hc hs h1 h2 h3 h4 h5 h6 h7
  generalize cosh (z * K R / B R) ^ B R = W at *
  generalize log (cosh (z * K R / B R)) = L
  generalize tanh (z * K R / B R) = T
  generalize K R = K, B R = B, D R = D, k R = k, b R = b, d R = d, dg R = dg, e R = e, cos (n * g R) = c, sin (n * g R) = s at *
  push_cast
  field_simp
  ring

theorem az_R (hK : HasDerivAt K (k R) R) (hB : HasDerivAt B (b R) R) (hD : HasDerivAt D (d R) R) (hRs : Rs ≠ 0)
    (hg : HasDerivAt g (dg R) R) (he : HasDerivAt e (-e R / Rs) R) (K0 : K R ≠ 0) (B0 : B R ≠ 0) (D0 : D R ≠ 0) :
    HasDerivAt (fun R => az C H (D R) (cos (n * g R)) (e R) (cosh (z * K R / B R) ^ B R) (tanh (z * K R / B R)))
      (-aRz C n H Rs (K R) (k R) (B R) (b R) (D R) (d R) (dg R) (cos (n * g R)) (sin (n * g R)) (e R)
        (cosh (z * K R / B R) ^ B R) (log (cosh (z * K R / B R))) (tanh (z * K R / B R)) z) R := by
  have hu := hd_div (hd_const_mul z hK) hB B0
  have hW := hd_coshpow hu hB
  have hT := hd_tanh hu
  have W0 : cosh (z * K R / B R) ^ B R ≠ 0 := (rpow_pos_of_pos (cosh_pos _) _).ne'
  refine (hd_mul (hd_const_mul (-H) he)
    (hd_div (hd_mul (hd_const_mul C (hd_cos (hd_const_mul n hg))) hT) (hd_mul hD hW)
      (mul_ne_zero D0 W0))).congr_deriv ?_
  dsimp only [aRz]
  clear hu hW hT
  generalize cosh (z * K R / B R) ^ B R = W at *
  generalize log (cosh (z * K R / B R)) = L
  generalize tanh (z * K R / B R) = T
  generalize K R = K, B R = B, D R = D, k R = k, b R = b, d R = d, dg R = dg, e R = e, cos (n * g R) = c, sin (n * g R) = s at *
  field_simp
  ring

theorem ap_R (hRs : Rs ≠ 0) (hK : HasDerivAt K (k R) R) (hB : HasDerivAt B (b R) R) (hD : HasDerivAt D (d R) R)
    (hg : HasDerivAt g (dg R) R) (he : HasDerivAt e (-e R / Rs) R) (K0 : K R ≠ 0) (B0 : B R ≠ 0) (D0 : D R ≠ 0) :
    HasDerivAt (fun R => ap C n N H (K R) (D R) (sin (n * g R)) (e R) (cosh (z * K R / B R) ^ B R))
      (-aRp C n N H Rs (K R) (k R) (B R) (b R) (D R) (d R) (dg R) (cos (n * g R)) (sin (n * g R)) (e R)
        (cosh (z * K R / B R) ^ B R) (log (cosh (z * K R / B R))) (tanh (z * K R / B R)) z) R := by
  have hu := hd_div (hd_const_mul z hK) hB B0
  have hW := hd_coshpow hu hB
  have W0 : cosh (z * K R / B R) ^ B R ≠ 0 := (rpow_pos_of_pos (cosh_pos _) _).ne'
  refine (hd_mul (hd_const_mul (-H) he)
    (hd_div (hd_const_mul (N * n * C) (hd_sin (hd_const_mul n hg))) (hd_mul (hd_mul hD hK) hW)
      (mul_ne_zero (mul_ne_zero D0 K0) W0))).congr_deriv ?_
  dsimp only [aRp]
  clear hu hW
  generalize cosh (z * K R / B R) ^ B R = W at *
  generalize log (cosh (z * K R / B R)) = L
  generalize tanh (z * K R / B R) = T
  generalize K R = K, B R = B, D R = D, k R = k, b R = b, d R = d, dg R = dg, e R = e, cos (n * g R) = c, sin (n * g R) = s at *
  field_simp
  ring

end der

section derz
variable {C n N H Rs K k B b D d dg c s E z : ℝ}

theorem hu_z (K B z : ℝ) : HasDerivAt (fun z => z * K / B) (K / B) z := by
  simpa using ((hd_id z).mul_const K).div_const B

theorem aV_z (K0 : K ≠ 0) (B0 : B ≠ 0) (D0 : D ≠ 0) :
    HasDerivAt (fun z => aV C H K D c E (cosh (z * K / B) ^ B))
      (-az C H D c E (cosh (z * K / B) ^ B) (tanh (z * K / B))) z := by
  have hW := hd_coshpow (hu_z K B z) (hd_const B z)
  have W0 : cosh (z * K / B) ^ B ≠ 0 := (rpow_pos_of_pos (cosh_pos _) _).ne'
  refine (hd_const_mul (-H * E) (hd_div (hd_const (C * c) z) (hd_const_mul (K * D) hW)
    (mul_ne_zero (mul_ne_zero K0 D0) W0))).congr_deriv ?_
  dsimp only [az]
  generalize cosh (z * K / B) ^ B = W at *
  generalize tanh (z * K / B) = T
  field_simp
  ring

theorem az_z (B0 : B ≠ 0) (D0 : D ≠ 0) :
    HasDerivAt (fun z => az C H D c E (cosh (z * K / B) ^ B) (tanh (z * K / B)))
      (-azz C H K B D c E (cosh (z * K / B) ^ B) (tanh (z * K / B))) z := by
  have hW := hd_coshpow (hu_z K B z) (hd_const B z)
  have hT := hd_tanh (hu_z K B z)
  have W0 : cosh (z * K / B) ^ B ≠ 0 := (rpow_pos_of_pos (cosh_pos _) _).ne'
  refine (hd_const_mul (-H * E) (hd_div (hd_const_mul (C * c) hT) (hd_const_mul D hW)
    (mul_ne_zero D0 W0))).congr_deriv ?_
  dsimp only [azz]
  generalize cosh (z * K / B) ^ B = W at *
  generalize tanh (z * K / B) = T
  field_simp
  ring

theorem ap_z (K0 : K ≠ 0) (B0 : B ≠ 0) (D0 : D ≠ 0) :
    HasDerivAt (fun z => ap C n N H K D s E (cosh (z * K / B) ^ B))
      (-apz C n N H D s E (cosh (z * K / B) ^ B) (tanh (z * K / B))) z := by
  have hW := hd_coshpow (hu_z K B z) (hd_const B z)
  have W0 : cosh (z * K / B) ^ B ≠ 0 := (rpow_pos_of_pos (cosh_pos _) _).ne'
  refine (hd_const_mul (-H * E) (hd_div (hd_const (N * n * C * s) z) (hd_const_mul (D * K) hW)
    (mul_ne_zero (mul_ne_zero D0 K0) W0))).congr_deriv ?_
  dsimp only [apz]
  generalize cosh (z * K / B) ^ B = W at *
  generalize tanh (z * K / B) = T
  field_simp
  ring

theorem aR_z (hRs : Rs ≠ 0) (K0 : K ≠ 0) (B0 : B ≠ 0) (D0 : D ≠ 0) :
    HasDerivAt (fun z => aR C n H Rs K k B b D d dg c s E (cosh (z * K / B) ^ B) (log (cosh (z * K / B)))
        (tanh (z * K / B)) z)
      (-aRz C n H Rs K k B b D d dg c s E (cosh (z * K / B) ^ B) (log (cosh (z * K / B))) (tanh (z * K / B)) z) z := by
  have hW := hd_coshpow (hu_z K B z) (hd_const B z)
  have hT := hd_tanh (hu_z K B z)
  have hL := hd_logcosh (hu_z K B z)
  have W0 : cosh (z * K / B) ^ B ≠ 0 := (rpow_pos_of_pos (cosh_pos _) _).ne'
  have h1 := hd_div (hd_const C z) (hd_const_mul D hW) (mul_ne_zero D0 W0)
  have h3 := hd_mul_const (k / K - b / B) (hd_mul (hd_id z) hT)
  have h4 := hd_const_mul (b / K) hL
  refine (hd_mul (hd_const_mul (-H * E) h1)
    (hd_add (hd_add (hd_const (n * dg / K * s) z) (hd_const_mul c (hd_add (hd_add (hd_add h3 h4) (hd_const (k / K ^ 2) z))
      (hd_const (d / D / K) z)))) (hd_const (c / K / Rs) z))).congr_deriv ?_
  dsimp only [aRz]
  clear hW hT hL h1 h3 h4
  generalize cosh (z * K / B) ^ B = W at *
  generalize log (cosh (z * K / B)) = L
  generalize tanh (z * K / B) = T
  field_simp
  ring

end derz

section derp
variable {C n N H Rs K k B b D d dg E W L T z φ : ℝ} {g : ℝ → ℝ}

theorem aV_p (hg : HasDerivAt g N φ) :
    HasDerivAt (fun φ => aV C H K D (cos (n * g φ)) E W) (-ap C n N H K D (sin (n * g φ)) E W) φ := by
  refine (hd_const_mul (-H * E) (hd_div_const (K * D * W) (hd_const_mul C (hd_cos (hd_const_mul n hg))))).congr_deriv ?_
  dsimp only [ap]
  rw [mul_comm D K]
  ring

theorem az_p (hg : HasDerivAt g N φ) :
    HasDerivAt (fun φ => az C H D (cos (n * g φ)) E W T) (-apz C n N H D (sin (n * g φ)) E W T) φ := by
  refine (hd_const_mul (-H * E) (hd_div_const (D * W) (hd_mul_const T (hd_const_mul C
    (hd_cos (hd_const_mul n hg)))))).congr_deriv ?_
  dsimp only [apz]
  ring

theorem ap_p (hg : HasDerivAt g N φ) :
    HasDerivAt (fun φ => ap C n N H K D (sin (n * g φ)) E W) (-app C n N H K D (cos (n * g φ)) E W) φ := by
  refine (hd_const_mul (-H * E) (hd_div_const (D * K * W) (hd_const_mul (N * n * C)
    (hd_sin (hd_const_mul n hg))))).congr_deriv ?_
  dsimp only [app]
  ring

theorem aR_p (hg : HasDerivAt g N φ) :
    HasDerivAt (fun φ => aR C n H Rs K k B b D d dg (cos (n * g φ)) (sin (n * g φ)) E W L T z)
      (-aRp C n N H Rs K k B b D d dg (cos (n * g φ)) (sin (n * g φ)) E W L T z) φ := by
  have hc := hd_cos (hd_const_mul n hg)
  have hs := hd_sin (hd_const_mul n hg)
  refine (hd_const_mul (-H * E * (C / (D * W)))
    (hd_add (hd_add (hd_const_mul (n * dg / K) hs)
      (hd_mul_const (z * T * (k / K - b / B) + b / K * L + k / K ^ 2 + d / D / K) hc))
      (hd_div_const Rs (hd_div_const K hc)))).congr_deriv ?_
  dsimp only [aRp]
  ring

end derp

/-! The functions of the class. -/

/-- What the constructor's arguments must satisfy for the arms to have a positive scale height. -/
structure Ok (p : Par) : Prop where
  sin : sina p ≠ 0
  pos : 0 < p.H * p.N / sina p
  Rs : p.Rs ≠ 0
  ref : p.r_ref ≠ 0

section conc
variable {p : Par} {n R z φ t : ℝ}

/-- `K H`. -/
def hh (p : Par) (n R : ℝ) : ℝ := p.H * p.N / sina p * n / R

theorem hh_pos (o : Ok p) (hn : 0 < n) (hR : 0 < R) : 0 < hh p n R := div_pos (mul_pos o.pos hn) hR
theorem H_ne (o : Ok p) : p.H ≠ 0 := fun h => by have := o.pos; simp [h] at this
theorem K_eq (o : Ok p) (n R : ℝ) : K p n R = hh p n R / p.H := by
  have := H_ne o; have := o.sin
  unfold K hh; field_simp
theorem B_eq (n R : ℝ) : B p n R = hh p n R * (0.4 * hh p n R + 1) := by
  unfold B hh HNn; ring
theorem D_eq (o : Ok p) (hn : 0 < n) (hR : 0 < R) :
    D p n R = (0.3 * hh p n R ^ 2 + hh p n R + 1) / (0.3 * hh p n R + 1) := by
  have h := hh_pos o hn hR
  have hs := o.sin
  have e : HNn p n = hh p n R * R * sina p := by unfold HNn hh; field_simp
  unfold D
  rw [e]
  generalize hh p n R = h' at *
  have h1 : 0.3 * h' + 1 ≠ 0 := by positivity
  have h2 : 0.3 * (h' * R * sina p) + R * sina p ≠ 0 := by
    rw [show 0.3 * (h' * R * sina p) + R * sina p = (0.3 * h' + 1) * (R * sina p) by ring]; positivity
  rw [div_eq_div_iff h2 h1]
  field_simp
theorem K_ne (o : Ok p) (hn : 0 < n) (hR : 0 < R) : K p n R ≠ 0 := by
  rw [K_eq o]; exact div_ne_zero (hh_pos o hn hR).ne' (H_ne o)
theorem B_pos (o : Ok p) (hn : 0 < n) (hR : 0 < R) : 0 < B p n R := by
  have := hh_pos o hn hR
  rw [B_eq]; positivity
theorem D_pos (o : Ok p) (hn : 0 < n) (hR : 0 < R) : 0 < D p n R := by
  have := hh_pos o hn hR
  rw [D_eq o hn hR]; positivity

theorem hh_R (hR : R ≠ 0) : HasDerivAt (fun R => hh p n R) (-hh p n R / R) R := by
  refine (hd_div (hd_const (p.H * p.N / sina p * n) R) (hd_id R) hR).congr_deriv ?_
  unfold hh
  field_simp
  ring

theorem K_R (hR : R ≠ 0) : HasDerivAt (K p n) (dK p n R) R := by
  refine (hd_div_const (sina p) (hd_div (hd_const (n * p.N) R) (hd_id R) hR)).congr_deriv ?_
  unfold dK
  field_simp
  try ring
theorem dK_R (hR : R ≠ 0) : HasDerivAt (dK p n) (d2K p n R) R := by
  refine (hd_div_const (sina p) (hd_div (hd_const (-n * p.N) R) (hd_pow 2 (hd_id R)) (pow_ne_zero 2 hR))).congr_deriv ?_
  unfold d2K
  push_cast
  field_simp
  try ring
theorem dK_eq (o : Ok p) (hR : R ≠ 0) : dK p n R = -K p n R / R := by
  unfold dK K; field_simp; try ring
theorem d2K_eq (o : Ok p) (hR : R ≠ 0) : d2K p n R = 2 * K p n R / R ^ 2 := by
  unfold d2K K; field_simp; try ring

theorem dB_eq (o : Ok p) (hR : R ≠ 0) : dB p n R = -hh p n R / R * (0.8 * hh p n R + 1) := by
  have := o.sin
  unfold dB hh HNn; field_simp; try ring
theorem d2B_eq (o : Ok p) (hR : R ≠ 0) : d2B p n R = hh p n R / R ^ 2 * (2.4 * hh p n R + 2) := by
  have := o.sin
  unfold d2B hh HNn; field_simp; try ring
theorem B_R (o : Ok p) (hR : R ≠ 0) : HasDerivAt (B p n) (dB p n R) R := by
  rw [show B p n = fun R => hh p n R * (0.4 * hh p n R + 1) from funext (B_eq n), dB_eq o hR]
  have h := hh_R (p := p) (n := n) hR
  refine (hd_mul h (hd_add (hd_const_mul 0.4 h) (hd_const 1 R))).congr_deriv ?_
  ring
theorem dB_R (o : Ok p) (hR : R ≠ 0) : HasDerivAt (dB p n) (d2B p n R) R := by
  have h := hh_R (p := p) (n := n) hR
  have e : (dB p n) =ᶠ[nhds R] fun R => -hh p n R / R * (0.8 * hh p n R + 1) := by
    filter_upwards [isOpen_ne.mem_nhds hR] with x hx using dB_eq o hx
  refine HasDerivAt.congr_of_eventuallyEq ?_ e
  rw [d2B_eq o hR]
  refine (hd_mul (hd_div (hd_neg h) (hd_id R) hR) (hd_add (hd_const_mul 0.8 h) (hd_const 1 R))).congr_deriv ?_
  field_simp
  ring

theorem dD_eq (o : Ok p) (hR : R ≠ 0) : dD p n R = hh p n R / R
    * (0.3 * (hh p n R + 0.3 * hh p n R ^ 2 + 1) / (0.3 * hh p n R + 1) ^ 2 - (1 + 0.6 * hh p n R) / (0.3 * hh p n R + 1)) := by
  have e : HNn p n / R / sina p = hh p n R := by unfold HNn hh; ring
  unfold dD
  dsimp only
  rw [e]
  ring
theorem d2D_eq (o : Ok p) (hn : 0 < n) (hR : 0 < R) : d2D p n R = hh p n R / R ^ 2 / (0.3 * hh p n R + 1)
    * (0.18 * hh p n R * (hh p n R + 0.3 * hh p n R ^ 2 + 1) / (0.3 * hh p n R + 1) ^ 2 + 2
      - 0.6 * hh p n R * (1 + 0.6 * hh p n R) / (0.3 * hh p n R + 1)
      - 0.6 * (hh p n R + 0.3 * hh p n R ^ 2 + 1) / (0.3 * hh p n R + 1) + 1.8 * hh p n R) := by
  have h := hh_pos o hn hR
  have hs := o.sin
  have e : HNn p n = hh p n R * R * sina p := by unfold HNn hh; field_simp
  unfold d2D
  dsimp only
  rw [e]
  have e2 : hh p n R * R * sina p / (R * sina p) = hh p n R := by field_simp
  rw [e2]
  generalize hh p n R = h' at *
  have h1 : 0.3 * h' + 1 ≠ 0 := by positivity
  generalize 0.3 * h' + 1 = y at *
  field_simp
theorem D_R (o : Ok p) (hn : 0 < n) (hR : 0 < R) : HasDerivAt (D p n) (dD p n R) R := by
  have h := hh_R (p := p) (n := n) hR.ne'
  have e : (D p n) =ᶠ[nhds R] fun R => (0.3 * hh p n R ^ 2 + hh p n R + 1) / (0.3 * hh p n R + 1) := by
    filter_upwards [isOpen_Ioi.mem_nhds hR] with x hx using D_eq o hn hx
  refine HasDerivAt.congr_of_eventuallyEq ?_ e
  rw [dD_eq o hR.ne']
  have h0 := hh_pos o hn hR
  have h1 : 0.3 * hh p n R + 1 ≠ 0 := by positivity
  refine (hd_div (hd_add (hd_add (hd_const_mul 0.3 (hd_pow 2 h)) h) (hd_const 1 R))
    (hd_add (hd_const_mul 0.3 h) (hd_const 1 R)) h1).congr_deriv ?_
  push_cast
  field_simp
  ring
theorem dD_R (o : Ok p) (hn : 0 < n) (hR : 0 < R) : HasDerivAt (dD p n) (d2D p n R) R := by
  have h := hh_R (p := p) (n := n) hR.ne'
  have e : (dD p n) =ᶠ[nhds R] fun R => hh p n R / R
      * (0.3 * (hh p n R + 0.3 * hh p n R ^ 2 + 1) / (0.3 * hh p n R + 1) ^ 2
        - (1 + 0.6 * hh p n R) / (0.3 * hh p n R + 1)) := by
    filter_upwards [isOpen_Ioi.mem_nhds hR] with x hx using dD_eq o (ne_of_gt hx)
  refine HasDerivAt.congr_of_eventuallyEq ?_ e
  rw [d2D_eq o hn hR]
  have h0 := hh_pos o hn hR
  have h1 : 0.3 * hh p n R + 1 ≠ 0 := by positivity
  have hy := hd_add (hd_const_mul 0.3 h) (hd_const 1 R)
  have hA := hd_div (hd_const_mul 0.3 (hd_add (hd_add h (hd_const_mul 0.3 (hd_pow 2 h))) (hd_const 1 R))) (hd_pow 2 hy)
    (pow_ne_zero 2 h1)
  have hC := hd_div (hd_add (hd_const 1 R) (hd_const_mul 0.6 h)) hy h1
  refine (hd_mul (hd_div h (hd_id R) hR.ne') (hd_sub hA hC)).congr_deriv ?_
  push_cast
  clear hy hA hC
  field_simp
  ring

theorem gamma_R (o : Ok p) (hR : R ≠ 0) (φ : ℝ) : HasDerivAt (fun R => gamma p R φ) (dgamma p R) R := by
  have hr := o.ref
  have h := hd_const_mul p.N (hd_sub (hd_const (φ - p.phi_ref) R)
    (hd_div_const (tana p) (hd_log (hd_div_const p.r_ref (hd_id R)) (div_ne_zero hR hr))))
  refine h.congr_deriv ?_
  unfold dgamma
  field_simp
  try ring
theorem dgamma_R (hR : R ≠ 0) : HasDerivAt (dgamma p) (d2gamma p R) R := by
  refine (hd_div_const (tana p) (hd_div (hd_const (-p.N) R) (hd_id R) hR)).congr_deriv ?_
  unfold d2gamma
  field_simp
  try ring
theorem gamma_p : HasDerivAt (fun φ => gamma p R (φ - p.omega * t)) p.N φ := by
  refine (hd_const_mul p.N (hd_sub (hd_sub (hd_sub (hd_id φ) (hd_const (p.omega * t) φ)) (hd_const p.phi_ref φ))
    (hd_const (log (R / p.r_ref) / tana p) φ))).congr_deriv ?_
  ring
theorem exp_R (o : Ok p) : HasDerivAt (fun R => exp (-(R - p.r_ref) / p.Rs)) (-exp (-(R - p.r_ref) / p.Rs) / p.Rs) R := by
  refine (hd_exp (hd_div_const p.Rs (hd_neg (hd_sub (hd_id R) (hd_const p.r_ref R))))).congr_deriv ?_
  ring

theorem alg_poisson {C n H Rs D E W L T u a q h R ca sa c s : ℝ} (hn : n ≠ 0) (hH : H ≠ 0) (hRs : Rs ≠ 0) (hD : D ≠ 0)
    (hW : W ≠ 0) (hh : 0 < h) (hR : R ≠ 0) (hcs : sa ^ 2 = 1 - ca ^ 2) :
    let K := h / H
    let B := h * (0.4 * h + 1)
    let z := u * B / K
    let Eb := 1 + a - R / Rs + h * (1 + 0.8 * h) * L - 0.4 * h ^ 2 * u * T
    let rE := q + a ^ 2 - R / Rs - h * (1 + 1.6 * h) * L - (0.4 * h ^ 2 * u) ^ 2 * (1 - T ^ 2) / B + 1.2 * h ^ 2 * u * T
    C * (H / (D * R)) * E * (1 / W)
        * (c * (K * R * (B + 1) / B * (1 - T ^ 2) - 1 / K / R * (Eb ^ 2 + rE)) - 2 * s * Eb * ca)
      = aRR C n H Rs K (-K / R) (2 * K / R ^ 2) B (-h / R * (0.8 * h + 1)) (h / R ^ 2 * (2.4 * h + 2)) D (-(a * D / R))
          (D / R ^ 2 * (a - q)) (-K * ca / n) (K * ca / (n * R)) c s E W L T z
        - aR C n H Rs K (-K / R) B (-h / R * (0.8 * h + 1)) D (-(a * D / R)) (-K * ca / n) c s E W L T z / R
        + app C n (K * R * sa / n) H K D c E W / R ^ 2 + azz C H K B D c E W T := by
  intro K B z Eb rE
  obtain ⟨y, hy⟩ : ∃ y, y = 0.4 * h + 1 := ⟨_, rfl⟩
  have hy0 : y ≠ 0 := by rw [hy]; positivity
  simp only [K, B, z, Eb, rE, aRR, aR, app, azz, ← hy]
  have h0 := hh.ne'
  field_simp
  rw [hcs, hy]
  ring

/-- One harmonic, with the density that solves Poisson's equation: `cox p C n` is the formula of `_dens` with the square
of the last factor of the second term of `rE`. -/
def cox (p : Par) (C n R z φ t : ℝ) : ℝ :=
  let g := gamma p R (φ - p.omega * t);
  let rho0 := 1 / (4 * π);
  let Ks := K p n R; let Bs := B p n R; let Ds := D p n R;
  let ng := n * g;
  let zKB := z * Ks / Bs;
  let sech := 1 / cosh zKB;
  let th := tanh zKB;
  let ls := log sech;
  let E := 1 + Ks * p.H / Ds * (1 - 0.3 / (1 + 0.3 * Ks * p.H) ^ 2) - R / p.Rs
    - (Ks * p.H) * (1 + 0.8 * Ks * p.H) * ls - 0.4 * (Ks * p.H) ^ 2 * zKB * th;
  let rE := -Ks * p.H / Ds * (1 - 0.3 * (1 - 0.3 * Ks * p.H) / (1 + 0.3 * Ks * p.H) ^ 3)
    + (Ks * p.H / Ds * (1 - 0.3 / (1 + 0.3 * Ks * p.H) ^ 2)) ^ 2 - R / p.Rs
    + Ks * p.H * (1 + 1.6 * Ks * p.H) * ls - (0.4 * (Ks * p.H) ^ 2 * zKB * sech) ^ 2 / Bs
    + 1.2 * (Ks * p.H) ^ 2 * zKB * th;
  C * rho0 * (p.H / (Ds * R)) * exp (-(R - p.r_ref) / p.Rs) * sech ^ Bs
    * (cos ng * (Ks * R * (Bs + 1) / Bs * sech ^ 2 - 1 / Ks / R * (E ^ 2 + rE)) - 2 * sin ng * E * cos p.alpha)

/-- One harmonic as a potential. -/
def tpot (p : Par) (C n : ℝ) : Pot where
  val R z φ t := aV C p.H (K p n R) (D p n R) (cos (n * gamma p R (φ - p.omega * t))) (exp (-(R - p.r_ref) / p.Rs))
    (cosh (z * K p n R / B p n R) ^ B p n R)
  Rforce R z φ t := aR C n p.H p.Rs (K p n R) (dK p n R) (B p n R) (dB p n R) (D p n R) (dD p n R) (dgamma p R)
    (cos (n * gamma p R (φ - p.omega * t))) (sin (n * gamma p R (φ - p.omega * t))) (exp (-(R - p.r_ref) / p.Rs))
    (cosh (z * K p n R / B p n R) ^ B p n R) (log (cosh (z * K p n R / B p n R))) (tanh (z * K p n R / B p n R)) z
  zforce R z φ t := az C p.H (D p n R) (cos (n * gamma p R (φ - p.omega * t))) (exp (-(R - p.r_ref) / p.Rs))
    (cosh (z * K p n R / B p n R) ^ B p n R) (tanh (z * K p n R / B p n R))
  phitorque R z φ t := ap C n p.N p.H (K p n R) (D p n R) (sin (n * gamma p R (φ - p.omega * t)))
    (exp (-(R - p.r_ref) / p.Rs)) (cosh (z * K p n R / B p n R) ^ B p n R)
  R2deriv R z φ t := aRR C n p.H p.Rs (K p n R) (dK p n R) (d2K p n R) (B p n R) (dB p n R) (d2B p n R) (D p n R)
    (dD p n R) (d2D p n R) (dgamma p R) (d2gamma p R)
    (cos (n * gamma p R (φ - p.omega * t))) (sin (n * gamma p R (φ - p.omega * t))) (exp (-(R - p.r_ref) / p.Rs))
    (cosh (z * K p n R / B p n R) ^ B p n R) (log (cosh (z * K p n R / B p n R))) (tanh (z * K p n R / B p n R)) z
  z2deriv R z φ t := azz C p.H (K p n R) (B p n R) (D p n R) (cos (n * gamma p R (φ - p.omega * t)))
    (exp (-(R - p.r_ref) / p.Rs)) (cosh (z * K p n R / B p n R) ^ B p n R) (tanh (z * K p n R / B p n R))
  Rzderiv R z φ t := aRz C n p.H p.Rs (K p n R) (dK p n R) (B p n R) (dB p n R) (D p n R) (dD p n R) (dgamma p R)
    (cos (n * gamma p R (φ - p.omega * t))) (sin (n * gamma p R (φ - p.omega * t))) (exp (-(R - p.r_ref) / p.Rs))
    (cosh (z * K p n R / B p n R) ^ B p n R) (log (cosh (z * K p n R / B p n R))) (tanh (z * K p n R / B p n R)) z
  phi2deriv R z φ t := app C n p.N p.H (K p n R) (D p n R) (cos (n * gamma p R (φ - p.omega * t)))
    (exp (-(R - p.r_ref) / p.Rs)) (cosh (z * K p n R / B p n R) ^ B p n R)
  Rphideriv R z φ t := aRp C n p.N p.H p.Rs (K p n R) (dK p n R) (B p n R) (dB p n R) (D p n R) (dD p n R) (dgamma p R)
    (cos (n * gamma p R (φ - p.omega * t))) (sin (n * gamma p R (φ - p.omega * t))) (exp (-(R - p.r_ref) / p.Rs))
    (cosh (z * K p n R / B p n R) ^ B p n R) (log (cosh (z * K p n R / B p n R))) (tanh (z * K p n R / B p n R)) z
  phizderiv R z φ t := apz C n p.N p.H (D p n R) (sin (n * gamma p R (φ - p.omega * t)))
    (exp (-(R - p.r_ref) / p.Rs)) (cosh (z * K p n R / B p n R) ^ B p n R) (tanh (z * K p n R / B p n R))
  dens := cox p C n

variable {C : ℝ}

theorem tgrad (o : Ok p) (hn : 0 < n) (hR : 0 < R) (z φ t : ℝ) : GradAt (tpot p C n) R z φ t where
  dR := aV_R (k := dK p n) (b := dB p n) (d := dD p n) (g := fun R => gamma p R (φ - p.omega * t)) (dg := dgamma p) o.Rs
    (K_R hR.ne') (B_R o hR.ne') (D_R o hn hR) (gamma_R o hR.ne' _) (exp_R o) (K_ne o hn hR) (B_pos o hn hR).ne'
    (D_pos o hn hR).ne'
  dz := aV_z (K_ne o hn hR) (B_pos o hn hR).ne' (D_pos o hn hR).ne'
  dphi := aV_p (g := fun φ => gamma p R (φ - p.omega * t)) gamma_p

theorem tforce (o : Ok p) (hn : 0 < n) (hR : 0 < R) (z φ t : ℝ) : ForceHess (tpot p C n) R z φ t where
  RR := aR_R (g := fun R => gamma p R (φ - p.omega * t)) o.Rs
    (K_R hR.ne') (B_R o hR.ne') (D_R o hn hR) (dK_R hR.ne') (dB_R o hR.ne') (dD_R o hn hR) (dgamma_R hR.ne')
    (gamma_R o hR.ne' _) (exp_R o) (K_ne o hn hR) (B_pos o hn hR).ne' (D_pos o hn hR).ne'
  Rz := aR_z o.Rs (K_ne o hn hR) (B_pos o hn hR).ne' (D_pos o hn hR).ne'
  Rp := aR_p (g := fun φ => gamma p R (φ - p.omega * t)) gamma_p
  zR := az_R (k := dK p n) (b := dB p n) (d := dD p n) (g := fun R => gamma p R (φ - p.omega * t)) (dg := dgamma p)
    (K_R hR.ne') (B_R o hR.ne') (D_R o hn hR) o.Rs (gamma_R o hR.ne' _) (exp_R o) (K_ne o hn hR) (B_pos o hn hR).ne'
    (D_pos o hn hR).ne'
  zz := az_z (B_pos o hn hR).ne' (D_pos o hn hR).ne'
  zp := az_p (g := fun φ => gamma p R (φ - p.omega * t)) gamma_p
  pR := ap_R (k := dK p n) (b := dB p n) (d := dD p n) (g := fun R => gamma p R (φ - p.omega * t)) (dg := dgamma p) o.Rs
    (K_R hR.ne') (B_R o hR.ne') (D_R o hn hR) (gamma_R o hR.ne' _) (exp_R o) (K_ne o hn hR) (B_pos o hn hR).ne'
    (D_pos o hn hR).ne'
  pz := ap_z (K_ne o hn hR) (B_pos o hn hR).ne' (D_pos o hn hR).ne'
  pp := ap_p (g := fun φ => gamma p R (φ - p.omega * t)) gamma_p

theorem sin_div_tan (x : ℝ) (h : sin x ≠ 0) : sin x / tan x = cos x := by
  rw [tan_eq_sin_div_cos, div_div_eq_mul_div, mul_comm, mul_div_assoc, div_self h, mul_one]

theorem tpoisson (o : Ok p) (hn : 0 < n) (hR : 0 < R) (z φ t : ℝ) : PoissonAlg (tpot p C n) R z φ t := by
  have h0 := hh_pos o hn hR
  have hH := H_ne o
  have hs := o.sin
  have hB := (B_pos o hn hR).ne'
  have hD := (D_pos o hn hR).ne'
  have hK := K_ne o hn hR
  have hW : cosh (z * K p n R / B p n R) ^ B p n R ≠ 0 := (rpow_pos_of_pos (cosh_pos _) _).ne'
  have hy : 0.3 * hh p n R + 1 ≠ 0 := by positivity
  have key := alg_poisson (C := C) (E := exp (-(R - p.r_ref) / p.Rs)) (W := cosh (z * K p n R / B p n R) ^ B p n R)
    (L := log (cosh (z * K p n R / B p n R))) (T := tanh (z * K p n R / B p n R)) (u := z * K p n R / B p n R)
    (a := hh p n R / D p n R * (1 - 0.3 / (1 + 0.3 * hh p n R) ^ 2))
    (q := -hh p n R / D p n R * (1 - 0.3 * (1 - 0.3 * hh p n R) / (1 + 0.3 * hh p n R) ^ 3))
    (ca := cos p.alpha) (sa := sin p.alpha)
    (c := cos (n * gamma p R (φ - p.omega * t))) (s := sin (n * gamma p R (φ - p.omega * t)))
    hn.ne' hH o.Rs hD hW h0 hR.ne' (by rw [sin_sq])
  dsimp only at key
  have eK := K_eq o n R
  have eB := B_eq (p := p) n R
  rw [← eK, ← eB] at key
  have ez : z * K p n R / B p n R * B p n R / K p n R = z := by field_simp
  have ed : -(hh p n R / D p n R * (1 - 0.3 / (1 + 0.3 * hh p n R) ^ 2) * D p n R / R) = dD p n R := by
    rw [dD_eq o hR.ne']
    field_simp
    ring
  have ed2 : D p n R / R ^ 2 * (hh p n R / D p n R * (1 - 0.3 / (1 + 0.3 * hh p n R) ^ 2)
      - -hh p n R / D p n R * (1 - 0.3 * (1 - 0.3 * hh p n R) / (1 + 0.3 * hh p n R) ^ 3)) = d2D p n R := by
    rw [d2D_eq o hn hR]
    have hy' : 1 + 0.3 * hh p n R ≠ 0 := by positivity
    field_simp
    ring
  have eg : -K p n R * cos p.alpha / n = dgamma p R := by
    rw [← sin_div_tan p.alpha hs]
    unfold K dgamma tana sina at *
    field_simp
  have eg2 : K p n R * cos p.alpha / (n * R) = d2gamma p R := by
    rw [← sin_div_tan p.alpha hs]
    unfold K d2gamma tana sina at *
    field_simp
  have eN : K p n R * R * sin p.alpha / n = p.N := by
    unfold K sina at *
    field_simp
  rw [ez, ed, ed2, eg, eg2, eN, ← dK_eq o hR.ne', ← d2K_eq o hR.ne', ← dB_eq o hR.ne', ← d2B_eq o hR.ne'] at key
  unfold PoissonAlg
  refine Eq.trans ?_ key
  have eh : hh p n R = K p n R * p.H := by rw [eK]; field_simp
  have esq : (1 / cosh (z * K p n R / B p n R)) ^ 2 = 1 - tanh (z * K p n R / B p n R) ^ 2 := by
    have := cosh_sq (z * K p n R / B p n R)
    have h' := (cosh_pos (z * K p n R / B p n R)).ne'
    rw [tanh_eq_sinh_div_cosh]
    field_simp
    linarith
  dsimp only [tpot, cox]
  rw [sech_rpow, log_sech, mul_pow _ (1 / cosh _) 2, esq, eh]
  have := pi_ne_zero
  field_simp
  ring

end conc
end Verif.SpiralArms
