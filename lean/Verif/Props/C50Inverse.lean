import Verif.Props.C50Motion

set_option autoImplicit false

/-!
# C50: the two directions of the isochrone transformation are inverse to each other
-/

noncomputable section
namespace Verif

open Real IsochroneAA

/-- The orbital elements of actions. -/
structure C50aux.InvElements (amp b jr jphi jz : ℝ) : Prop where
  L0 : 0 < invL jphi jz
  a0 : 0 < invA amp b jr jphi jz
  hH : -2 * invH amp b jr jphi jz * (invA amp b jr jphi jz + b) = amp
  H0 : invH amp b jr jphi jz < 0
  e0 : 0 < invE amp b jr jphi jz
  e1 : invE amp b jr jphi jz < 1
  he : amp * invA amp b jr jphi jz ^ 2 * (1 - invE amp b jr jphi jz ^ 2)
    = invL jphi jz ^ 2 * (invA amp b jr jphi jz + b)

theorem C50aux.invH_S (amp b jr jphi jz : ℝ) :
    2 * jr + invL jphi jz + invRoot amp b jphi jz = 2 * C50aux.S amp b jr jphi jz := by
  simp only [C50aux.S, invL, invRoot]
  rw [show (jz + |jphi|) ^ 2 + 4 * b * amp = (jz + |jphi|) ^ 2 + 4 * amp * b by ring]
  ring

theorem C50aux.invElements (amp b jr jphi jz : ℝ) (ha : 0 < amp) (hb : 0 ≤ b) (hr : 0 < jr) (hL : 0 < jz + |jphi|) :
    C50aux.InvElements amp b jr jphi jz := by
  have hroot : 0 < (jz + |jphi|) ^ 2 + 4 * amp * b := by positivity
  have hq := sqrt_pos.2 hroot
  have hq2 := sq_sqrt hroot.le
  have hS : 0 < C50aux.S amp b jr jphi jz := by
    unfold C50aux.S
    positivity
  have hH : -2 * invH amp b jr jphi jz = amp ^ 2 / C50aux.S amp b jr jphi jz ^ 2 := by
    unfold invH
    rw [C50aux.invH_S]
    field_simp
  have hHn : invH amp b jr jphi jz < 0 := by
    have : 0 < -2 * invH amp b jr jphi jz := by
      rw [hH]
      positivity
    linarith
  have hab : invA amp b jr jphi jz + b = C50aux.S amp b jr jphi jz ^ 2 / amp := by
    have : invH amp b jr jphi jz = -(amp ^ 2 / C50aux.S amp b jr jphi jz ^ 2) / 2 := by linarith
    unfold invA
    rw [this]
    field_simp
    ring
  have key : C50aux.S amp b jr jphi jz * (jz + |jphi|) < amp * invA amp b jr jphi jz := by
    have h1 : amp * invA amp b jr jphi jz = C50aux.S amp b jr jphi jz ^ 2 - amp * b := by
      have : invA amp b jr jphi jz = C50aux.S amp b jr jphi jz ^ 2 / amp - b := by linarith
      rw [this]
      field_simp
    have h2 : C50aux.S amp b jr jphi jz = jr + 1 / 2 * ((jz + |jphi|) + √((jz + |jphi|) ^ 2 + 4 * amp * b)) := rfl
    rw [h1]
    generalize √((jz + |jphi|) ^ 2 + 4 * amp * b) = q at *
    generalize jz + |jphi| = l at *
    rw [h2]
    have : 0 < jr * (jr + q) := by positivity
    nlinarith
  have ha0 : 0 < invA amp b jr jphi jz := by
    have : 0 < amp * invA amp b jr jphi jz := lt_trans (by positivity) key
    exact pos_of_mul_pos_right this ha.le
  have key2 : (jz + |jphi|) ^ 2 * (invA amp b jr jphi jz + b) < amp * invA amp b jr jphi jz ^ 2 := by
    have h1 : (C50aux.S amp b jr jphi jz * (jz + |jphi|)) ^ 2 < (amp * invA amp b jr jphi jz) ^ 2 := by
      have : 0 < C50aux.S amp b jr jphi jz * (jz + |jphi|) := by positivity
      nlinarith
    rw [hab, mul_div_assoc', div_lt_iff₀ ha]
    nlinarith
  have he2 : 1 + invL jphi jz ^ 2 / (2 * invH amp b jr jphi jz * invA amp b jr jphi jz ^ 2)
      = 1 - (jz + |jphi|) ^ 2 * (invA amp b jr jphi jz + b) / (amp * invA amp b jr jphi jz ^ 2) := by
    have h1 : 2 * invH amp b jr jphi jz = -(amp / (invA amp b jr jphi jz + b)) := by
      rw [hab]
      have : 2 * invH amp b jr jphi jz = -(amp ^ 2 / C50aux.S amp b jr jphi jz ^ 2) := by linarith
      rw [this]
      field_simp
    rw [h1]
    unfold invL
    have : invA amp b jr jphi jz + b ≠ 0 := by positivity
    field_simp
    ring
  have hpos : 0 < 1 - (jz + |jphi|) ^ 2 * (invA amp b jr jphi jz + b) / (amp * invA amp b jr jphi jz ^ 2) := by
    rw [sub_pos, div_lt_one (by positivity)]
    exact key2
  have hee : invE amp b jr jphi jz ^ 2
      = 1 - (jz + |jphi|) ^ 2 * (invA amp b jr jphi jz + b) / (amp * invA amp b jr jphi jz ^ 2) := by
    unfold invE
    rw [he2, sq_sqrt hpos.le]
  have he0 : 0 < invE amp b jr jphi jz := by
    unfold invE
    rw [he2]
    exact sqrt_pos.2 hpos
  refine ⟨hL, ha0, ?_, hHn, he0, ?_, ?_⟩
  · rw [hH, hab]
    field_simp
  · have : 0 < (jz + |jphi|) ^ 2 * (invA amp b jr jphi jz + b) / (amp * invA amp b jr jphi jz ^ 2) := by positivity
    nlinarith
  · rw [hee]
    unfold invL
    field_simp
    ring

/-- Spherical radius of the inverse. -/
def C50aux.ir (a b e eta : ℝ) : ℝ := a * √((1 - e * cos eta) * (1 - e * cos eta + 2 * b / a))
/-- Angle in the plane of the orbit of the inverse. -/
def C50aux.iPsi (amp b jr jphi jz ar az eta : ℝ) : ℝ :=
  let a := invA amp b jr jphi jz
  let e := invE amp b jr jphi jz
  let tan11 := atanTan (√((1 + e) / (1 - e))) (eta / 2)
  let tan12 := atanTan (√((a * (1 + e) + 2 * b) / (a * (1 - e) + 2 * b))) (eta / 2)
  let tan11 := if tan11 < 0 then tan11 + π else tan11
  let tan12 := if tan12 < 0 then tan12 + π else tan12
  az - invOmegaz amp b jr jphi jz / invOmegar amp b jr jphi jz * ar
    + (tan11 + invL jphi jz / invRoot amp b jphi jz * tan12)
/-- Sine of the inclination of the inverse. -/
def C50aux.low (jphi jz : ℝ) : ℝ := √(1 - jphi ^ 2 / invL jphi jz ^ 2)

/-- Phase-space point from the position in the plane of the orbit. -/
def C50aux.place (k a e jphi l low r psi eta base : ℝ) : Point :=
  let vr := k * a * e * sin eta / r
  let sintheta := sin psi * low
  let costheta := √(1 - sintheta ^ 2)
  let vtheta := l * low * cos psi / costheta / r
  let sinu := sintheta / costheta * jphi / l / low
  let u := if vtheta < 0 then π - arcsin sinu else arcsin sinu
  ⟨r * costheta, vr * costheta - vtheta * sintheta, jphi / (r * costheta), r * sintheta,
    vr * sintheta + vtheta * costheta, mod2pi (if low = 0 then psi else base + u)⟩

theorem C50aux.xvOf_eq (amp b jr jphi jz ar af az eta : ℝ) :
    xvOf amp b jr jphi jz ar af az eta = C50aux.place (√(amp / (invA amp b jr jphi jz + b))) (invA amp b jr jphi jz)
      (invE amp b jr jphi jz) jphi (invL jphi jz) (C50aux.low jphi jz)
      (C50aux.ir (invA amp b jr jphi jz) b (invE amp b jr jphi jz) eta) (C50aux.iPsi amp b jr jphi jz ar az eta) eta
      (af - SignType.sign jphi * az) := rfl

/-- What the placed point satisfies. -/
theorem C50aux.place_spec (k a e jphi l low r psi eta base : ℝ) (hr : 0 < r) (hl : 0 < l) (hlow0 : 0 < low)
    (hlow : l ^ 2 * low ^ 2 = l ^ 2 - jphi ^ 2) (hj : jphi ≠ 0) :
    let q := C50aux.place k a e jphi l low r psi eta base
    0 < q.R ∧ q.R ^ 2 + q.z ^ 2 = r ^ 2 ∧ Lz q = jphi ∧ L2 q = l ^ 2
      ∧ q.R * q.vR + q.z * q.vz = k * a * e * sin eta
      ∧ q.z = r * (sin psi * low) ∧ q.R * (q.R * q.vz - q.z * q.vR) = r * (l * low * cos psi) := by
  intro q
  have hlow1 : low ^ 2 < 1 := by
    have h1 : l ^ 2 * low ^ 2 < l ^ 2 * 1 := by
      rw [hlow]
      have : 0 < jphi ^ 2 := by positivity
      linarith
    exact lt_of_mul_lt_mul_left h1 (sq_nonneg l)
  have hst : (sin psi * low) ^ 2 < 1 := by
    rw [mul_pow]
    have := sin_sq_le_one psi
    nlinarith [sq_nonneg low, sq_nonneg (sin psi)]
  have hct0 : 0 < √(1 - (sin psi * low) ^ 2) := sqrt_pos.2 (by linarith)
  have hct : √(1 - (sin psi * low) ^ 2) ^ 2 = 1 - (sin psi * low) ^ 2 := sq_sqrt (by linarith)
  have hq : q = C50aux.place k a e jphi l low r psi eta base := rfl
  have hqR : q.R = r * √(1 - (sin psi * low) ^ 2) := rfl
  have hqz : q.z = r * (sin psi * low) := rfl
  have hqvR : q.vR = k * a * e * sin eta / r * √(1 - (sin psi * low) ^ 2)
    - l * low * cos psi / √(1 - (sin psi * low) ^ 2) / r * (sin psi * low) := rfl
  have hqvz : q.vz = k * a * e * sin eta / r * (sin psi * low)
    + l * low * cos psi / √(1 - (sin psi * low) ^ 2) / r * √(1 - (sin psi * low) ^ 2) := rfl
  have hqvT : q.vT = jphi / (r * √(1 - (sin psi * low) ^ 2)) := rfl
  clear_value q
  have hsc := sin_sq_add_cos_sq psi
  generalize √(1 - (sin psi * low) ^ 2) = ct at *
  have hM : q.R * q.vz - q.z * q.vR = l * low * cos psi / ct := by
    rw [hqR, hqz, hqvR, hqvz]
    field_simp
    linear_combination (l * cos psi) * hct
  refine ⟨by rw [hqR]; positivity, by rw [hqR, hqz]; linear_combination r ^ 2 * hct, ?_, ?_, ?_, hqz, ?_⟩
  · unfold Lz
    rw [hqR, hqvT]
    field_simp
  · rw [C50aux.L2_eq]
    unfold C50Spec.angmom2
    have e1 : q.z * q.vR - q.R * q.vz = -(l * low * cos psi / ct) := by linarith
    rw [e1, hqz, hqR, hqvT]
    have hcos : cos psi ^ 2 = 1 - sin psi ^ 2 := by linarith
    have e2 : (r * (sin psi * low) * (jphi / (r * ct))) ^ 2 + (-(l * low * cos psi / ct)) ^ 2 + (r * ct * (jphi / (r * ct))) ^ 2
        = ((sin psi * low) ^ 2 * jphi ^ 2 + (l * low) ^ 2 * cos psi ^ 2 + ct ^ 2 * jphi ^ 2) / ct ^ 2 := by
      field_simp
    rw [e2, hcos, div_eq_iff (by positivity), hct]
    linear_combination (1 - sin psi ^ 2 * 0) * hlow
  · rw [hqR, hqz, hqvR, hqvz]
    field_simp
    linear_combination (k * a * e * sin eta) * hct
  · rw [hM, hqR]
    field_simp

/-- The azimuth of the placed point. -/
theorem C50aux.place_phi (k a e jphi l low r psi eta base : ℝ) (hr : 0 < r) (hl : 0 < l) (hlow0 : 0 < low)
    (hlow : l ^ 2 * low ^ 2 = l ^ 2 - jphi ^ 2) (hj : jphi ≠ 0) :
    let q := C50aux.place k a e jphi l low r psi eta base
    q.phi = mod2pi (base + (if q.R * q.vz - q.z * q.vR < 0 then π - arcsin (q.z * q.vT / (l * low))
      else arcsin (q.z * q.vT / (l * low)))) := by
  obtain ⟨h1, h2, h3, h4, h5, h6, h7⟩ := C50aux.place_spec k a e jphi l low r psi eta base hr hl hlow0 hlow hj
  intro q
  change 0 < q.R at h1
  change q.z = r * (sin psi * low) at h6
  change q.R * (q.R * q.vz - q.z * q.vR) = r * (l * low * cos psi) at h7
  have hR : q.R = r * √(1 - (sin psi * low) ^ 2) := rfl
  have hT : q.vT = jphi / (r * √(1 - (sin psi * low) ^ 2)) := rfl
  have hphi : q.phi = mod2pi (if low = 0 then psi else base
    + (if l * low * cos psi / √(1 - (sin psi * low) ^ 2) / r < 0
      then π - arcsin (sin psi * low / √(1 - (sin psi * low) ^ 2) * jphi / l / low)
      else arcsin (sin psi * low / √(1 - (sin psi * low) ^ 2) * jphi / l / low))) := rfl
  clear_value q
  have hct : 0 < √(1 - (sin psi * low) ^ 2) := by
    rw [hR] at h1
    exact pos_of_mul_pos_right h1 hr.le
  generalize √(1 - (sin psi * low) ^ 2) = ct at *
  have hMv : q.R * q.vz - q.z * q.vR = r * (l * low * cos psi / ct / r) := by
    have h8 : q.R * (q.R * q.vz - q.z * q.vR) = q.R * (r * (l * low * cos psi / ct / r)) := by
      rw [h7, hR]
      field_simp
    exact mul_left_cancel₀ h1.ne' h8
  have hcond : (q.R * q.vz - q.z * q.vR < 0) ↔ l * low * cos psi / ct / r < 0 := by
    rw [hMv]
    exact ⟨fun h => by by_contra hn; exact absurd h (not_lt.2 (mul_nonneg hr.le (not_lt.1 hn))),
      fun h => mul_neg_of_pos_of_neg hr h⟩
  have harg : q.z * q.vT / (l * low) = sin psi * low / ct * jphi / l / low := by
    rw [h6, hT]
    field_simp
  rw [hphi, if_neg hlow0.ne']
  simp only [hcond, harg]

/-- The auxiliary angle of the node. -/
theorem C50aux.u_branch (q : Point) (h1 : 0 < q.R) (hL0 : 0 < L q) (hN0 : 0 < C50aux.N q) :
    C50Spec.Same (u q) (if q.R * q.vz - q.z * q.vR < 0
      then π - arcsin (q.z * q.vT / C50aux.N q) else arcsin (q.z * q.vT / C50aux.N q)) := by
  have hus := C50aux.u_spec q h1 hL0 hN0
  have hSC : (q.z * q.vT / C50aux.N q) ^ 2 + ((q.R * q.vz - q.z * q.vR) / C50aux.N q) ^ 2 = 1 := by
    rw [← hus.1, ← hus.2]
    exact sin_sq_add_cos_sq _
  have hclip : clip (q.z * q.vT / C50aux.N q) = q.z * q.vT / C50aux.N q := by
    apply C50aux.clip_id
    · nlinarith [sq_nonneg ((q.R * q.vz - q.z * q.vR) / C50aux.N q)]
    · nlinarith [sq_nonneg ((q.R * q.vz - q.z * q.vR) / C50aux.N q)]
  have hbr := C50aux.arcsin_branch (q.z * q.vT / C50aux.N q) ((q.R * q.vz - q.z * q.vR) / C50aux.N q)
    (q.R * q.vz - q.z * q.vR < 0) hSC ⟨fun h => div_neg_of_neg_of_pos h hN0, fun h => by
      by_contra hn
      have : 0 ≤ (q.R * q.vz - q.z * q.vR) / C50aux.N q := div_nonneg (not_lt.1 hn) hN0.le
      linarith⟩
  rw [hclip] at hbr
  exact C50aux.same_of_cos_sin (hus.2.trans hbr.2.symm) (hus.1.trans hbr.1.symm)

theorem C50aux.Same_sub {x y x' y' : ℝ} (h : C50Spec.Same x y) (h' : C50Spec.Same x' y') :
    C50Spec.Same (x - x') (y - y') := by
  rw [sub_eq_add_neg, sub_eq_add_neg]
  exact C50aux.same_add h (C50aux.same_neg h')

/-- The energy of the placed point. -/
theorem C50aux.place_energy (amp b a e l eta : ℝ) (q : Point) (ha : 0 < amp) (hb : 0 ≤ b) (ha0 : 0 < a) (he0 : 0 < e)
    (he1 : e < 1) (hl : amp * a ^ 2 * (1 - e ^ 2) = l ^ 2 * (a + b))
    (hR : q.R ^ 2 + q.z ^ 2 = C50aux.ir a b e eta ^ 2) (hL2 : L2 q = l ^ 2)
    (hA : q.R * q.vR + q.z * q.vz = √(amp / (a + b)) * a * e * sin eta) :
    0 < C50aux.ir a b e eta ∧ C50aux.w b q = b + a * (1 - e * cos eta) ∧ -2 * E amp b q * (a + b) = amp := by
  have hec : 0 < 1 - e * cos eta := by nlinarith [cos_le_one eta]
  have h2ba : 0 ≤ 2 * b / a := by positivity
  have hpos : 0 < (1 - e * cos eta) * (1 - e * cos eta + 2 * b / a) := by positivity
  have hir : 0 < C50aux.ir a b e eta := mul_pos ha0 (sqrt_pos.2 hpos)
  have hir2 : C50aux.ir a b e eta ^ 2 = a * (1 - e * cos eta) * (a * (1 - e * cos eta) + 2 * b) := by
    unfold C50aux.ir
    rw [mul_pow, sq_sqrt hpos.le]
    field_simp
  have hw : C50aux.w b q = b + a * (1 - e * cos eta) := by
    unfold C50aux.w
    rw [hR, hir2, show b ^ 2 + a * (1 - e * cos eta) * (a * (1 - e * cos eta) + 2 * b)
      = (b + a * (1 - e * cos eta)) ^ 2 by ring, sqrt_sq (by positivity)]
  refine ⟨hir, hw, ?_⟩
  have hab : 0 < a + b := by positivity
  have hrad := C50aux.radial q
  have hk : √(amp / (a + b)) ^ 2 = amp / (a + b) := sq_sqrt (by positivity)
  rw [hA, hL2, hR, mul_pow, mul_pow, mul_pow, hk] at hrad
  rw [C50aux.E_eq]
  unfold C50Spec.energy
  rw [show √(b ^ 2 + (q.R ^ 2 + q.z ^ 2)) = C50aux.w b q from rfl, hw]
  have hv : (q.vR ^ 2 + q.vT ^ 2 + q.vz ^ 2)
      = (amp / (a + b) * a ^ 2 * e ^ 2 * sin eta ^ 2 + l ^ 2) / C50aux.ir a b e eta ^ 2 := by
    rw [eq_div_iff (by positivity)]
    linarith
  have hl' : l ^ 2 = amp * a ^ 2 * (1 - e ^ 2) / (a + b) := by
    rw [eq_div_iff hab.ne']
    linarith
  have hs : sin eta ^ 2 = 1 - cos eta ^ 2 := by linarith [sin_sq_add_cos_sq eta]
  have h1 : 0 < a * (1 - e * cos eta) := by positivity
  rw [hv, hir2, hl', hs]
  have hX : e * cos eta = 1 - a * (1 - e * cos eta) / a := by
    field_simp
    ring
  have hX2 : e ^ 2 * (1 - cos eta ^ 2) = e ^ 2 - (e * cos eta) ^ 2 := by ring
  rw [show amp / (a + b) * a ^ 2 * e ^ 2 * (1 - cos eta ^ 2) = amp / (a + b) * a ^ 2 * (e ^ 2 * (1 - cos eta ^ 2)) by ring,
    hX2]
  generalize e * cos eta = X at *
  generalize a * (1 - X) = d at *
  rw [hX]
  have hd2 : b + (b + d) ≠ 0 := by positivity
  have hd3 : d + 2 * b ≠ 0 := by positivity
  field_simp
  ring

/-- The elements of the placed point are those of the actions. -/
theorem C50aux.inverse_elements (amp b jr jphi jz ar af az eta : ℝ) (ha : 0 < amp) (hb : 0 ≤ b) (hr : 0 < jr)
    (hj : jphi ≠ 0) (hz : 0 < jz) :
    let q := xvOf amp b jr jphi jz ar af az eta
    actions amp b q = (jr, jphi, jz) ∧ C50aux.Elements amp b q ∧ L q = invL jphi jz
      ∧ c amp b q = invA amp b jr jphi jz ∧ e amp b q = invE amp b jr jphi jz
      ∧ coseta amp b q = cos eta ∧ C50aux.Y amp b q = sin eta := by
  have hjp : 0 < |jphi| := abs_pos.2 hj
  have hi := C50aux.invElements amp b jr jphi jz ha hb hr (by positivity)
  have hL0 := hi.L0
  have hl2 : jphi ^ 2 < invL jphi jz ^ 2 := by
    rw [← sq_abs jphi]
    unfold invL
    nlinarith
  have hlowpos : 0 < 1 - jphi ^ 2 / invL jphi jz ^ 2 := by
    rw [sub_pos, div_lt_one (by positivity)]
    exact hl2
  have hlow0 : 0 < C50aux.low jphi jz := sqrt_pos.2 hlowpos
  have hlow : invL jphi jz ^ 2 * C50aux.low jphi jz ^ 2 = invL jphi jz ^ 2 - jphi ^ 2 := by
    unfold C50aux.low
    rw [sq_sqrt hlowpos.le]
    field_simp
  have hec : 0 < 1 - invE amp b jr jphi jz * cos eta := by
    have := hi.e0
    have := hi.e1
    nlinarith [cos_le_one eta]
  have ha0 := hi.a0
  have hir : 0 < C50aux.ir (invA amp b jr jphi jz) b (invE amp b jr jphi jz) eta :=
    mul_pos ha0 (sqrt_pos.2 (by positivity))
  intro q
  have hq : q = C50aux.place _ _ _ _ _ _ _ _ _ _ := C50aux.xvOf_eq amp b jr jphi jz ar af az eta
  obtain ⟨h1, h2, h3, h4, h5, h6, h7⟩ := C50aux.place_spec (√(amp / (invA amp b jr jphi jz + b)))
    (invA amp b jr jphi jz) (invE amp b jr jphi jz) jphi (invL jphi jz) (C50aux.low jphi jz)
    (C50aux.ir (invA amp b jr jphi jz) b (invE amp b jr jphi jz) eta) (C50aux.iPsi amp b jr jphi jz ar az eta) eta
    (af - SignType.sign jphi * az) hir hL0 hlow0 hlow hj
  rw [← hq] at h1 h2 h3 h4 h5 h6 h7
  obtain ⟨_, hw, hE⟩ := C50aux.place_energy amp b _ _ _ eta q ha hb ha0 hi.e0 hi.e1 hi.he h2 h4 h5
  clear_value q
  have hab : invA amp b jr jphi jz + b ≠ 0 := by positivity
  have hEH : E amp b q = invH amp b jr jphi jz := by
    have := hi.hH
    have h8 := mul_right_cancel₀ hab (hE.trans this.symm)
    linarith
  have hL : L q = invL jphi jz := by
    unfold L
    rw [h4, sqrt_sq hL0.le]
  have hc : c amp b q = invA amp b jr jphi jz := by
    unfold c invA
    rw [hEH]
  have hH0 := hi.H0.ne
  have he : e amp b q = invE amp b jr jphi jz := by
    unfold e invE
    rw [hc, h4]
    congr 1
    have h9 : invH amp b jr jphi jz = -amp / (2 * (invA amp b jr jphi jz + b)) := by
      rw [eq_div_iff (by positivity)]
      linarith [hi.hH]
    rw [h9]
    field_simp
    ring
  have hS : 0 < C50aux.S amp b jr jphi jz := by
    unfold C50aux.S
    have := sqrt_nonneg ((jz + |jphi|) ^ 2 + 4 * amp * b)
    positivity
  have hsq : -2 * invH amp b jr jphi jz = (amp / C50aux.S amp b jr jphi jz) ^ 2 := by
    unfold invH
    rw [C50aux.invH_S]
    field_simp
  have hact : actions amp b q = (jr, jphi, jz) := by
    unfold actions Jr Jz
    rw [hEH, hL, h3, h4, hsq, sqrt_sq (by positivity)]
    have e1 : amp / (amp / C50aux.S amp b jr jphi jz) = C50aux.S amp b jr jphi jz := by
      field_simp
    rw [e1]
    unfold C50aux.S invL
    simp
  have hel : C50aux.Elements amp b q := by
    refine C50aux.elements amp b ha hb q h1 ?_ ?_ ?_
    · rw [← C50aux.E_eq, hEH]
      exact hi.H0
    · rw [hact]
      exact hr
    · rintro h
      apply hj
      rw [← h3]
      unfold Lz
      rw [h, mul_zero]
  refine ⟨hact, hel, hL, hc, he, ?_, ?_⟩
  · rw [C50aux.coseta_eq amp b hb, hw, hc, he]
    have := hi.e0
    field_simp
    ring
  · unfold C50aux.Y C50aux.k0
    rw [h5, hc, he]
    have := hi.e0
    have h8 : 0 < √(amp / (invA amp b jr jphi jz + b)) := sqrt_pos.2 (by positivity)
    field_simp

theorem C50aux.kepler_mono (k : ℝ) (h0 : 0 ≤ k) (h1 : k < 1) : StrictMono fun y : ℝ => y - k * sin y := by
  have hd : ∀ y, HasDerivAt (fun y => y - k * sin y) (1 - k * cos y) y := fun y =>
    (hasDerivAt_id y).sub ((hasDerivAt_sin y).const_mul _)
  refine strictMono_of_deriv_pos fun y => ?_
  rw [(hd y).deriv]
  nlinarith [cos_le_one y]

theorem C50aux.kepler_range (k ar eta : ℝ) (h0 : 0 ≤ k) (h1 : k < 1) (ha : 0 ≤ ar) (hb : ar < 2 * π)
    (h : eta - k * sin eta = ar) : 0 ≤ eta ∧ eta < 2 * π := by
  have hm := C50aux.kepler_mono k h0 h1
  constructor
  · by_contra hn
    have := hm (not_le.1 hn)
    simp only [sin_zero, mul_zero, sub_zero] at this
    linarith
  · by_contra hn
    have := hm.monotone (not_lt.1 hn)
    simp only [sin_two_pi, mul_zero, sub_zero] at this
    linarith

theorem C50aux.kappa_range {amp b jr jphi jz : ℝ} (hb : 0 ≤ b) (hi : C50aux.InvElements amp b jr jphi jz) :
    0 ≤ invA amp b jr jphi jz * invE amp b jr jphi jz / (invA amp b jr jphi jz + b)
      ∧ invA amp b jr jphi jz * invE amp b jr jphi jz / (invA amp b jr jphi jz + b) < 1 := by
  have h1 := hi.a0
  have h2 := hi.e0
  have h3 := hi.e1
  refine ⟨by positivity, ?_⟩
  rw [div_lt_one (by positivity)]
  nlinarith

theorem C50aux.mod2pi_range (x : ℝ) : 0 ≤ mod2pi x ∧ mod2pi x < 2 * π := by
  have h2 : 0 < 2 * π := by positivity
  have h := Int.floor_le (x / (2 * π))
  have h' := Int.lt_floor_add_one (x / (2 * π))
  rw [le_div_iff₀ h2] at h
  rw [div_lt_iff₀ h2] at h'
  unfold mod2pi
  constructor <;> linarith

theorem C50aux.mod2pi_same {x y : ℝ} (h : C50Spec.Same x y) : mod2pi x = mod2pi y := by
  obtain ⟨n, rfl⟩ := h
  unfold mod2pi
  have h2 : 2 * π ≠ 0 := by positivity
  rw [add_div, mul_div_cancel_left₀ _ h2, Int.floor_add_intCast]
  push_cast
  ring

theorem C50aux.mod2pi_id {x : ℝ} (h0 : 0 ≤ x) (h1 : x < 2 * π) : mod2pi x = x := by
  have h2 : 0 < 2 * π := by positivity
  have : ⌊x / (2 * π)⌋ = 0 := by
    rw [Int.floor_eq_zero_iff]
    exact ⟨by positivity, by rwa [div_lt_one h2]⟩
  unfold mod2pi
  rw [this]
  simp

/-- **C50 (Kepler's equation).** For all actions of a non-circular orbit and every radial angle, the equation that the inverse
solves has exactly one solution, and it lies in `[0, 2 pi)`. -/
theorem C50_kepler (amp b jr jphi jz ar : ℝ) (ha : 0 < amp) (hb : 0 ≤ b) (hr : 0 < jr) (hL : 0 < jz + |jphi|) :
    ∃ eta, kepler amp b jr jphi jz (mod2pi ar) eta = 0 ∧ 0 ≤ eta ∧ eta < 2 * π
      ∧ ∀ eta', kepler amp b jr jphi jz (mod2pi ar) eta' = 0 → eta' = eta := by
  obtain ⟨k0, k1⟩ := C50aux.kappa_range hb (C50aux.invElements amp b jr jphi jz ha hb hr hL)
  obtain ⟨r0, r1⟩ := C50aux.mod2pi_range ar
  unfold kepler
  generalize invA amp b jr jphi jz * invE amp b jr jphi jz / (invA amp b jr jphi jz + b) = k at *
  generalize mod2pi ar = x at *
  have hm := C50aux.kepler_mono k k0 k1
  have hcont : Continuous fun y : ℝ => y - k * sin y := continuous_id.sub (continuous_const.mul continuous_sin)
  have hmem : x ∈ Set.Icc ((fun y : ℝ => y - k * sin y) 0) ((fun y : ℝ => y - k * sin y) (2 * π)) := by
    simp only [sin_zero, mul_zero, sub_zero, sin_two_pi]
    exact ⟨r0, r1.le⟩
  obtain ⟨eta, _, he⟩ := intermediate_value_Icc (by positivity : (0 : ℝ) ≤ 2 * π) hcont.continuousOn hmem
  have he' : eta - k * sin eta = x := he
  obtain ⟨g0, g1⟩ := C50aux.kepler_range k x eta k0 k1 r0 r1 he'
  refine ⟨eta, by linarith, g0, g1, fun eta' h => hm.injective ?_⟩
  change eta' - k * sin eta' = eta - k * sin eta
  linarith

/-- **C50 (inverse, then forward).** The point computed from the actions and angles of an inclined, non-circular, non-polar
orbit has exactly these actions, and these angles modulo `2 pi`. -/
theorem C50_inverse_forward (amp b jr jphi jz ar af az eta : ℝ) (ha : 0 < amp) (hb : 0 ≤ b) (hr : 0 < jr)
    (hj : jphi ≠ 0) (hz : 0 < jz) (hk : kepler amp b jr jphi jz (mod2pi ar) eta = 0) :
    let q := xvOf amp b jr jphi jz (mod2pi ar) af az eta
    actions amp b q = (jr, jphi, jz) ∧ angles amp b q = (mod2pi ar, mod2pi af, mod2pi az) := by
  intro q
  obtain ⟨hact, hel, hL, hc, he, hX, hY⟩ :=
    C50aux.inverse_elements amp b jr jphi jz (mod2pi ar) af az eta ha hb hr hj hz
  change actions amp b q = (jr, jphi, jz) at hact
  change C50aux.Elements amp b q at hel
  change L q = invL jphi jz at hL
  change c amp b q = invA amp b jr jphi jz at hc
  change e amp b q = invE amp b jr jphi jz at he
  change coseta amp b q = cos eta at hX
  change C50aux.Y amp b q = sin eta at hY
  have hjp : 0 < |jphi| := abs_pos.2 hj
  have hi := C50aux.invElements amp b jr jphi jz ha hb hr (by positivity)
  obtain ⟨k0, k1⟩ := C50aux.kappa_range hb hi
  obtain ⟨r0, r1⟩ := C50aux.mod2pi_range ar
  have hk' : eta - invA amp b jr jphi jz * invE amp b jr jphi jz / (invA amp b jr jphi jz + b) * sin eta = mod2pi ar := by
    unfold kepler at hk
    linarith
  obtain ⟨g0, g1⟩ := C50aux.kepler_range _ _ _ k0 k1 r0 r1 hk'
  refine ⟨hact, ?_⟩
  obtain ⟨s1, s2, s3, s4⟩ := C50aux.eta_spec amp b q hel
  have heta : eta = IsochroneAA.eta amp b q := by
    obtain ⟨n, hn⟩ := C50aux.same_of_cos_sin (s1.trans hX) (s2.trans hY)
    have hpi := pi_pos
    have hn0 : n = 0 := by
      have h1 : (n : ℝ) < 1 := by
        by_contra h
        nlinarith
      have h2 : (-1 : ℝ) < n := by
        by_contra h
        nlinarith
      have h1' : n < 1 := by exact_mod_cast h1
      have h2' : -1 < n := by exact_mod_cast h2
      omega
    rw [hn0] at hn
    simp at hn
    exact hn.symm
  have hang : angler amp b q = mod2pi ar := by
    unfold angler
    rw [← heta, he, hc, ← hk']
    ring
  -- the ratio of the frequencies
  have hroot : invRoot amp b jphi jz = √(L2 q + 4 * amp * b) := by
    unfold invRoot
    have : L q ^ 2 = L2 q := sq_sqrt (C50aux.L2_nonneg q)
    rw [← hL, this]
    congr 1
    ring
  have hE : E amp b q = invH amp b jr jphi jz := by
    have h1 := hel.hE
    rw [hc] at h1
    have h2 := hi.hH
    have hab : invA amp b jr jphi jz + b ≠ 0 := by
      have := hi.a0
      positivity
    have := mul_right_cancel₀ hab (h1.trans h2.symm)
    linarith
  have hor : invOmegar amp b jr jphi jz = Omegar amp b q := by
    unfold invOmegar Omegar
    rw [hE]
  have hoz : invOmegaz amp b jr jphi jz = Omegaz amp b q := by
    unfold invOmegaz Omegaz
    rw [hor, hL, hroot]
    ring
  have hpsiV : C50aux.iPsi amp b jr jphi jz (mod2pi ar) az eta
      = az - Omegaz amp b q / Omegar amp b q * angler amp b q + tan11 amp b q
        + L q / √(L2 q + 4 * amp * b) * tan12 amp b q := by
    have t1 : tan11 amp b q = (let t := atanTan (√((1 + invE amp b jr jphi jz) / (1 - invE amp b jr jphi jz))) (eta / 2)
        if t < 0 then t + π else t) := by
      unfold tan11
      rw [← heta, he, show 1 / 2 * eta = eta / 2 by ring]
    have t2 : tan12 amp b q = (let t := atanTan (√((invA amp b jr jphi jz * (1 + invE amp b jr jphi jz) + 2 * b)
        / (invA amp b jr jphi jz * (1 - invE amp b jr jphi jz) + 2 * b))) (eta / 2)
        if t < 0 then t + π else t) := by
      unfold tan12
      rw [← heta, he, hc, show 1 / 2 * eta = eta / 2 by ring]
      have h1 := hi.a0
      have h2 := hi.e1
      have h3 := hi.e0
      have : (1 + invE amp b jr jphi jz + 2 * b / invA amp b jr jphi jz)
          / (1 - invE amp b jr jphi jz + 2 * b / invA amp b jr jphi jz)
          = (invA amp b jr jphi jz * (1 + invE amp b jr jphi jz) + 2 * b)
            / (invA amp b jr jphi jz * (1 - invE amp b jr jphi jz) + 2 * b) := by
        have h4 : 0 < 1 - invE amp b jr jphi jz := by linarith
        have h5 : 1 - invE amp b jr jphi jz + 2 * b / invA amp b jr jphi jz ≠ 0 := by positivity
        have h6 : invA amp b jr jphi jz * (1 - invE amp b jr jphi jz) + 2 * b ≠ 0 := by positivity
        rw [div_eq_div_iff h5 h6]
        generalize invE amp b jr jphi jz = ee at *
        field_simp
      rw [this]
    rw [t1, t2, hang, ← hor, ← hoz, hL, ← hroot]
    unfold C50aux.iPsi
    dsimp only
    ring
  -- the position in the plane of the orbit
  have hL0 : 0 < L q := by
    rw [hL]
    exact hi.L0
  have hl2 : jphi ^ 2 < invL jphi jz ^ 2 := by
    rw [← sq_abs jphi]
    unfold invL
    nlinarith
  have hlowpos : 0 < 1 - jphi ^ 2 / invL jphi jz ^ 2 := by
    rw [sub_pos, div_lt_one (by have := hi.L0; positivity)]
    exact hl2
  have hlow0 : 0 < C50aux.low jphi jz := sqrt_pos.2 hlowpos
  have hlow : invL jphi jz ^ 2 * C50aux.low jphi jz ^ 2 = invL jphi jz ^ 2 - jphi ^ 2 := by
    have := hi.L0
    unfold C50aux.low
    rw [sq_sqrt hlowpos.le]
    field_simp
  have hec : 0 < 1 - invE amp b jr jphi jz * cos eta := by
    have := hi.e0
    have := hi.e1
    nlinarith [cos_le_one eta]
  have hir : 0 < C50aux.ir (invA amp b jr jphi jz) b (invE amp b jr jphi jz) eta := by
    have := hi.a0
    exact mul_pos this (sqrt_pos.2 (by positivity))
  have hq : q = C50aux.place _ _ _ _ _ _ _ _ _ _ := C50aux.xvOf_eq amp b jr jphi jz (mod2pi ar) af az eta
  obtain ⟨h1, h2, h3, h4, h5, h6, h7⟩ := C50aux.place_spec (√(amp / (invA amp b jr jphi jz + b)))
    (invA amp b jr jphi jz) (invE amp b jr jphi jz) jphi (invL jphi jz) (C50aux.low jphi jz)
    (C50aux.ir (invA amp b jr jphi jz) b (invE amp b jr jphi jz) eta)
    (C50aux.iPsi amp b jr jphi jz (mod2pi ar) az eta) eta (af - SignType.sign jphi * az) hir hi.L0 hlow0 hlow hj
  rw [← hq] at h1 h2 h3 h4 h5 h6 h7
  clear_value q
  have hN : C50aux.N q = L q * C50aux.low jphi jz := by
    unfold C50aux.N
    rw [h3, hL, ← hlow, ← mul_pow, sqrt_sq (by have := hi.L0; positivity)]
  have hN0 : 0 < C50aux.N q := by
    rw [hN]
    positivity
  have hrq : √(q.R ^ 2 + q.z ^ 2) = C50aux.ir (invA amp b jr jphi jz) b (invE amp b jr jphi jz) eta := by
    rw [h2, sqrt_sq hir.le]
  have hps := C50aux.psi_spec q h1 hL0 hN0
  have hpsi : C50Spec.Same (psi q) (C50aux.iPsi amp b jr jphi jz (mod2pi ar) az eta) := by
    refine C50aux.same_of_cos_sin ?_ ?_
    · rw [hps.2, h7, hN, hrq, hL]
      have := hi.L0
      field_simp
    · rw [hps.1, hrq, h6, hN, hL]
      have := hi.L0
      field_simp
  have hzz : C50Spec.Same (anglez amp b q) az := by
    have hs := C50aux.same_trans (C50aux.same_mod (psi q)) hpsi
    obtain ⟨n, hn⟩ := hs
    refine ⟨n, ?_⟩
    unfold anglez
    rw [hn, hpsiV, C50aux.lambda amp b q hel]
    ring
  -- the node
  have hphi : q.phi = mod2pi (af - SignType.sign jphi * az + (if q.R * q.vz - q.z * q.vR < 0
      then π - arcsin (q.z * q.vT / C50aux.N q) else arcsin (q.z * q.vT / C50aux.N q))) := by
    have h8 := C50aux.place_phi (√(amp / (invA amp b jr jphi jz + b)))
      (invA amp b jr jphi jz) (invE amp b jr jphi jz) jphi (invL jphi jz) (C50aux.low jphi jz)
      (C50aux.ir (invA amp b jr jphi jz) b (invE amp b jr jphi jz) eta)
      (C50aux.iPsi amp b jr jphi jz (mod2pi ar) az eta) eta (af - SignType.sign jphi * az) hir hi.L0 hlow0 hlow hj
    rw [← hq] at h8
    rw [hN, hL]
    exact h8
  have huu := C50aux.u_branch q h1 hL0 hN0
  have hphu : C50Spec.Same (q.phi - u q) (af - SignType.sign jphi * az) := by
    have h8 := C50aux.Same_sub (C50aux.same_mod (af - SignType.sign jphi * az + (if q.R * q.vz - q.z * q.vR < 0
      then π - arcsin (q.z * q.vT / C50aux.N q) else arcsin (q.z * q.vT / C50aux.N q)))) huu
    rw [← hphi, add_sub_cancel_right] at h8
    exact h8
  have hff : C50Spec.Same (anglephi amp b q) af := by
    unfold anglephi
    rw [h3]
    split_ifs with h
    · have := C50aux.Same_sub hphu hzz
      rw [sign_neg h] at this
      simpa using this
    · have hpos : 0 < jphi := lt_of_le_of_ne (not_lt.1 h) (Ne.symm hj)
      have := C50aux.same_add hphu hzz
      rw [sign_pos hpos] at this
      simpa using this
  unfold angles
  rw [hang, C50aux.mod2pi_same hff, C50aux.mod2pi_same hzz, C50aux.mod2pi_id r0 r1]

/-- Placing a point from its own elements. -/
theorem C50aux.place_self (q : Point) (k a e eta psi base : ℝ) (hR : 0 < q.R) (hL : 0 < L q) (hN : 0 < C50aux.N q)
    (hvT : q.vT ≠ 0)
    (hA : q.R * q.vR + q.z * q.vz = k * a * e * sin eta) (hpsi : C50Spec.Same psi (IsochroneAA.psi q))
    (hbase : C50Spec.Same (base + u q) q.phi) :
    C50aux.place k a e (Lz q) (L q) (C50aux.N q / L q) (√(q.R ^ 2 + q.z ^ 2)) psi eta base
      = { q with phi := mod2pi q.phi } := by
  obtain ⟨n, hn⟩ := hpsi
  have hs : sin psi = sin (IsochroneAA.psi q) := by rw [hn, mul_comm, sin_add_int_mul_two_pi]
  have hc : cos psi = cos (IsochroneAA.psi q) := by rw [hn, mul_comm, cos_add_int_mul_two_pi]
  obtain ⟨ps, pc⟩ := C50aux.psi_spec q hR hL hN
  have hr : 0 < √(q.R ^ 2 + q.z ^ 2) := sqrt_pos.2 (by positivity)
  have hr2 : √(q.R ^ 2 + q.z ^ 2) ^ 2 = q.R ^ 2 + q.z ^ 2 := sq_sqrt (by positivity)
  have hub := C50aux.u_branch q hR hL hN
  rw [ps] at hs
  rw [pc] at hc
  generalize √(q.R ^ 2 + q.z ^ 2) = r at *
  have hst : sin psi * (C50aux.N q / L q) = q.z / r := by
    rw [hs]
    field_simp
  have hct : √(1 - (sin psi * (C50aux.N q / L q)) ^ 2) = q.R / r := by
    rw [hst, show 1 - (q.z / r) ^ 2 = (q.R / r) ^ 2 by
      field_simp
      linarith, sqrt_sq (by positivity)]
  have hvt : L q * (C50aux.N q / L q) * cos psi / (q.R / r) / r = (q.R * q.vz - q.z * q.vR) / r := by
    rw [hc]
    field_simp
  have hsu : q.z / r / (q.R / r) * Lz q / L q / (C50aux.N q / L q) = q.z * q.vT / C50aux.N q := by
    unfold Lz
    field_simp
  have hcond : ((q.R * q.vz - q.z * q.vR) / r < 0) ↔ q.R * q.vz - q.z * q.vR < 0 := by
    rw [div_lt_iff₀ hr, zero_mul]
  have hphi : mod2pi (base + (if (q.R * q.vz - q.z * q.vR) / r < 0 then π - arcsin (q.z * q.vT / C50aux.N q)
      else arcsin (q.z * q.vT / C50aux.N q))) = mod2pi q.phi := by
    simp only [hcond]
    refine C50aux.mod2pi_same (C50aux.same_trans ?_ hbase)
    exact C50aux.same_add (C50aux.same_refl _) (C50aux.same_symm hub)
  unfold C50aux.place
  dsimp only
  rw [hct, hst, hvt, hsu, if_neg (by positivity : C50aux.N q / L q ≠ 0), hphi, ← hA]
  have h1 : r * (q.R / r) = q.R := by field_simp
  have h2 : r * (q.z / r) = q.z := by field_simp
  have h3 : (q.R * q.vR + q.z * q.vz) / r * (q.R / r) - (q.R * q.vz - q.z * q.vR) / r * (q.z / r) = q.vR := by
    field_simp
    linear_combination (-q.vR) * hr2
  have h4 : (q.R * q.vR + q.z * q.vz) / r * (q.z / r) + (q.R * q.vz - q.z * q.vR) / r * (q.R / r) = q.vz := by
    field_simp
    linear_combination (-q.vz) * hr2
  have h5 : Lz q / q.R = q.vT := by
    unfold Lz
    field_simp
  rw [h1, h2, h3, h4, h5]

/-- **C50 (forward, then inverse).** For every bound, inclined, non-circular, non-polar orbit, the point computed from the
actions and angles is the original point, its azimuth reduced to `[0, 2 pi)`. -/
theorem C50_forward_inverse (amp b : ℝ) (ha : 0 < amp) (hb : 0 ≤ b) (q : Point) (hR : 0 < q.R)
    (hE : C50Spec.energy amp b q < 0) (hJr : 0 < (actions amp b q).1) (hJ : (actions amp b q).2.1 ≠ 0)
    (hz : 0 < (actions amp b q).2.2) (x : ℝ)
    (hk : kepler amp b (actions amp b q).1 (actions amp b q).2.1 (actions amp b q).2.2
      (mod2pi (angles amp b q).1) x = 0) :
    xvOf amp b (actions amp b q).1 (actions amp b q).2.1 (actions amp b q).2.2 (mod2pi (angles amp b q).1)
      (angles amp b q).2.1 (angles amp b q).2.2 x = { q with phi := mod2pi q.phi } := by
  have hvT : q.vT ≠ 0 := by
    rintro h
    apply hJ
    simp [actions, Lz, h]
  have hel := C50aux.elements amp b ha hb q hR hE hJr hvT
  have hL0 : 0 < L q := sqrt_pos.2 hel.L0
  have hN0 : 0 < C50aux.N q := (C50aux.N_pos_iff q hJ).2 hz
  have hl : L q ^ 2 = L2 q := sq_sqrt (C50aux.L2_nonneg q)
  have hr : 0 < -2 * C50Spec.energy amp b q := by linarith
  have hs : √(-2 * C50Spec.energy amp b q) ^ 2 = -2 * C50Spec.energy amp b q := sq_sqrt hr.le
  have hp : 0 < √(-2 * C50Spec.energy amp b q) := sqrt_pos.2 hr
  have eL : invL (Lz q) (Jz q) = L q := by
    unfold invL Jz
    ring
  have eroot : invRoot amp b (Lz q) (Jz q) = √(L2 q + 4 * amp * b) := by
    unfold invRoot
    rw [eL, hl]
    congr 1
    ring
  have eH : invH amp b (Jr amp b q) (Lz q) (Jz q) = E amp b q := by
    unfold invH
    rw [eL, eroot]
    have : 2 * Jr amp b q + L q + √(L2 q + 4 * amp * b) = 2 * (amp / √(-2 * E amp b q)) := by
      unfold Jr
      ring
    rw [this, C50aux.E_eq]
    field_simp
    rw [neg_mul] at hs
    linarith
  have er : invOmegar amp b (Jr amp b q) (Lz q) (Jz q) = Omegar amp b q := by
    unfold invOmegar Omegar
    rw [eH]
  have ez : invOmegaz amp b (Jr amp b q) (Lz q) (Jz q) = Omegaz amp b q := by
    unfold invOmegaz Omegaz
    rw [er, eL, eroot]
    ring
  have eA : invA amp b (Jr amp b q) (Lz q) (Jz q) = c amp b q := by
    unfold invA c
    rw [eH]
  have hc0 := hel.c0
  have hcb : c amp b q + b ≠ 0 := by positivity
  have eE : invE amp b (Jr amp b q) (Lz q) (Jz q) = e amp b q := by
    unfold invE e
    rw [eL, eH, eA, hl]
    congr 1
    have h9 : E amp b q = -amp / (2 * (c amp b q + b)) := by
      rw [eq_div_iff (by positivity)]
      linarith [hel.hE]
    rw [h9]
    field_simp
    ring
  have elow : C50aux.low (Lz q) (Jz q) = C50aux.N q / L q := by
    unfold C50aux.low C50aux.N
    rw [eL, show 1 - Lz q ^ 2 / L q ^ 2 = (L q ^ 2 - Lz q ^ 2) / L q ^ 2 by field_simp,
      sqrt_div' _ (sq_nonneg _), sqrt_sq hL0.le]
  -- the eccentric anomaly
  obtain ⟨s1, s2, s3, s4⟩ := C50aux.eta_spec amp b q hel
  have k0 : 0 ≤ e amp b q * c amp b q / (c amp b q + b) := by
    have := hel.e0
    positivity
  have k1 : e amp b q * c amp b q / (c amp b q + b) < 1 := by
    have := hel.e0
    have := hel.e1
    rw [div_lt_one (by positivity)]
    nlinarith
  have hm := C50aux.kepler_mono _ k0 k1
  have ha0 : 0 ≤ angler amp b q := by
    have := hm.monotone s3
    simp only [sin_zero, mul_zero, sub_zero] at this
    exact this
  have ha1 : angler amp b q < 2 * π := by
    have := hm s4
    simp only [sin_two_pi, mul_zero, sub_zero] at this
    exact this
  have hang : mod2pi (angles amp b q).1 = angler amp b q := by
    change mod2pi (mod2pi (angler amp b q)) = _
    rw [C50aux.mod2pi_id ha0 ha1, C50aux.mod2pi_id ha0 ha1]
  have hx : x = eta amp b q := by
    apply hm.injective
    rw [hang] at hk
    simp only [kepler, actions, eA, eE] at hk
    change x - e amp b q * c amp b q / (c amp b q + b) * sin x = angler amp b q
    rw [mul_comm (e amp b q)]
    linarith
  rw [hang, hx, C50aux.xvOf_eq]
  simp only [actions, angles]
  rw [eA, eE, eL, elow]
  have hec : e amp b q * cos (eta amp b q) = 1 - (C50aux.w b q - b) / c amp b q := by
    rw [s1, C50aux.coseta_eq amp b hb]
    have := hel.e0
    field_simp
  have hrr : C50aux.ir (c amp b q) b (e amp b q) (eta amp b q) = √(q.R ^ 2 + q.z ^ 2) := by
    unfold C50aux.ir
    rw [hec]
    have hw := C50aux.w_sq b q
    have hbw := C50aux.w_gt b q hR
    have : (1 - (1 - (C50aux.w b q - b) / c amp b q)) * (1 - (1 - (C50aux.w b q - b) / c amp b q) + 2 * b / c amp b q)
        = (q.R ^ 2 + q.z ^ 2) / c amp b q ^ 2 := by
      field_simp
      linear_combination hw
    rw [this, sqrt_div (by positivity), sqrt_sq hc0.le]
    field_simp
  rw [hrr]
  have hA : q.R * q.vR + q.z * q.vz = √(amp / (c amp b q + b)) * c amp b q * e amp b q * sin (eta amp b q) := by
    rw [s2]
    unfold C50aux.Y
    have h1 := C50aux.k0_pos amp b q hel
    have h2 := hel.e0
    rw [show √(amp / (c amp b q + b)) = C50aux.k0 amp b q from rfl]
    field_simp
  have hpsi : C50Spec.Same (C50aux.iPsi amp b (Jr amp b q) (Lz q) (Jz q) (angler amp b q) (mod2pi (anglez amp b q))
      (eta amp b q)) (psi q) := by
    have t1 : (let t := atanTan (√((1 + e amp b q) / (1 - e amp b q))) (eta amp b q / 2)
        if t < 0 then t + π else t) = tan11 amp b q := by
      unfold tan11
      rw [show 1 / 2 * eta amp b q = eta amp b q / 2 by ring]
    have t2 : (let t := atanTan (√((c amp b q * (1 + e amp b q) + 2 * b) / (c amp b q * (1 - e amp b q) + 2 * b))) (eta amp b q / 2)
        if t < 0 then t + π else t) = tan12 amp b q := by
      unfold tan12
      rw [show 1 / 2 * eta amp b q = eta amp b q / 2 by ring]
      have h1 : 0 < 1 - e amp b q := by linarith [hel.e1]
      have h2 := hel.e0
      have : (1 + e amp b q + 2 * b / c amp b q) / (1 - e amp b q + 2 * b / c amp b q)
          = (c amp b q * (1 + e amp b q) + 2 * b) / (c amp b q * (1 - e amp b q) + 2 * b) := by
        have h5 : 1 - e amp b q + 2 * b / c amp b q ≠ 0 := by positivity
        have h6 : c amp b q * (1 - e amp b q) + 2 * b ≠ 0 := by positivity
        rw [div_eq_div_iff h5 h6]
        generalize e amp b q = ee at *
        field_simp
      rw [this]
    have e1 : C50aux.iPsi amp b (Jr amp b q) (Lz q) (Jz q) (angler amp b q) (mod2pi (anglez amp b q)) (eta amp b q)
        = mod2pi (anglez amp b q) - Omegaz amp b q / Omegar amp b q * angler amp b q
          + (tan11 amp b q + L q / √(L2 q + 4 * amp * b) * tan12 amp b q) := by
      unfold C50aux.iPsi
      rw [eA, eE, er, ez, eL, eroot, ← t1, ← t2]
    have h3 := C50aux.same_mod (anglez amp b q)
    have h4 := C50aux.same_mod (psi q)
    obtain ⟨n, hn⟩ := h3
    obtain ⟨m, hm⟩ := h4
    refine ⟨n + m, ?_⟩
    rw [e1, hn]
    unfold anglez
    rw [hm, C50aux.lambda amp b q hel]
    push_cast
    ring
  refine C50aux.place_self q _ _ _ _ _ _ hR hL0 hN0 hvT hA hpsi ?_
  have h3 := C50aux.same_mod (anglez amp b q)
  have h4 := C50aux.same_mod (anglephi amp b q)
  have h5 : anglephi amp b q = q.phi - u q + SignType.sign (Lz q) * anglez amp b q := by
    unfold anglephi
    rcases lt_or_gt_of_ne (show Lz q ≠ 0 from hJ) with h | h
    · rw [if_pos h, sign_neg h]
      simp
      ring
    · rw [if_neg (not_lt.2 h.le), sign_pos h]
      simp
  have h6 : C50Spec.Same (SignType.sign (Lz q) * mod2pi (anglez amp b q)) (SignType.sign (Lz q) * anglez amp b q) := by
    rcases lt_or_gt_of_ne (show Lz q ≠ 0 from hJ) with h | h
    · rw [sign_neg h]
      simpa using C50aux.same_neg h3
    · rw [sign_pos h]
      simpa using h3
  have h7 := C50aux.same_add (C50aux.Same_sub h4 h6) (C50aux.same_refl (u q))
  rw [h5] at h7 ⊢
  have e2 : q.phi - u q + SignType.sign (Lz q) * anglez amp b q - SignType.sign (Lz q) * anglez amp b q + u q = q.phi := by
    ring
  rwa [e2] at h7

/-- An orbit with negative angular momentum that meets the hypotheses of the round trip. -/
example : ∃ eta, kepler 4 1 1 (-1) 2 (mod2pi 7) eta = 0
    ∧ actions 4 1 (xvOf 4 1 1 (-1) 2 (mod2pi 7) 3 5 eta) = (1, -1, 2) := by
  obtain ⟨eta, h, _⟩ := C50_kepler 4 1 1 (-1) 2 7 (by norm_num) (by norm_num) (by norm_num) (by norm_num)
  exact ⟨eta, h, (C50_inverse_forward 4 1 1 (-1) 2 7 3 5 eta (by norm_num) (by norm_num) (by norm_num) (by norm_num)
    (by norm_num) h).1⟩

end Verif
