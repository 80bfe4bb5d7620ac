import Verif.Lemmas.Pot.EllipsoidalMethods

set_option autoImplicit false

/-! # Ellipsoidal potentials: the C version -/

open Set MeasureTheory Filter Topology

namespace Verif.Ellipsoidal
open Real hiding pi
open EllInt

variable {p : Par}

/-- The C functions of the profile are those of Python. -/
def Profile.Same (P Q : Profile) : Prop :=
  ∀ m : ℝ, 0 ≤ m → P.psi m = Q.psi m ∧ P.mdens m = Q.mdens m ∧ P.mdensDeriv m = Q.mdensDeriv m

theorem hessIntAll_gl {l : List (ℝ × ℝ)} (hg : p.gl = some l) (x y z : ℝ) :
    hessIntAll p x y z = ⟨x ^ 2 * J p 1 1 x y z + I p 1 x y z, x * y * J p 1 p.b2 x y z, x * z * J p 1 p.c2 x y z,
      y ^ 2 * J p p.b2 p.b2 x y z + I p p.b2 x y z, y * z * J p p.b2 p.c2 x y z,
      z ^ 2 * J p p.c2 p.c2 x y z + I p p.c2 x y z⟩ := by
  have diag : ∀ β w : ℝ, w ^ 2 * J p β β x y z + I p β x y z
      = quad p.gl fun s => w ^ 2 * (h2 p (U p (x, y, z) s) * (co β s * (co β s * om p.b2 p.c2 s)))
        + h1 p (U p (x, y, z) s) * (co β s * om p.b2 p.c2 s) := by
    intro β w
    rw [quad_add (fun h => by rw [hg] at h; cases h) (fun h => by rw [hg] at h; cases h), quad_mul]
    rfl
  have off : ∀ β γ w : ℝ, w * J p β γ x y z
      = quad p.gl fun s => w * (h2 p (U p (x, y, z) s) * (co β s * (co γ s * om p.b2 p.c2 s))) := by
    intro β γ w
    rw [quad_mul]
    rfl
  rw [diag 1 x, diag p.b2 y, diag p.c2 z, off, off, off]
  unfold hessIntAll
  simp only [hg, quad, Hess.mk.injEq]
  refine ⟨?_, ?_, ?_, ?_, ?_, ?_⟩ <;> congr 2 <;> funext n <;>
    simp [h1, h2, U, u, co, om, div_eq_mul_inv] <;> ring

/-- The methods with the azimuth as given. -/
noncomputable def full (p : Par) : Method → ℝ → ℝ → ℝ → ℝ
  | .Rforce => fun R z φ => RforceOf p φ (xyzforces p (R * cos φ, R * sin φ, z))
  | .zforce => fun R z φ => zforceOf p (xyzforces p (R * cos φ, R * sin φ, z))
  | .phitorque => fun R z φ => phitorqueOf p R φ (xyzforces p (R * cos φ, R * sin φ, z))
  | .R2deriv => fun R z φ => R2derivOf φ (xyzhess p (R * cos φ, R * sin φ, z))
  | .z2deriv => fun R z φ => (xyzhess p (R * cos φ, R * sin φ, z)).zz
  | .Rzderiv => fun R z φ => RzderivOf φ (xyzhess p (R * cos φ, R * sin φ, z))
  | .phi2deriv => fun R z φ => phi2derivOf R φ (xyzforces p (R * cos φ, R * sin φ, z)) (xyzhess p (R * cos φ, R * sin φ, z))
  | .Rphideriv => fun R z φ => RphiderivOf R φ (xyzforces p (R * cos φ, R * sin φ, z)) (xyzhess p (R * cos φ, R * sin φ, z))
  | .phizderiv => fun R z φ => phizderivOf R φ (xyzhess p (R * cos φ, R * sin φ, z))

theorem get_eq_full {l : List (ℝ × ℝ)} (hg : p.gl = some l) (hax : p.b = 1 ∨ p.isNonAxi) (m : Method) (R z φ : ℝ) :
    m.get (pot p) R z φ = full p m R z φ := by
  by_cases hn : p.isNonAxi
  · cases m <;> simp only [Method.get, full, pot, phi_nonaxi hn, Coords.cyl_to_rect]
  · have ha : p.rot = none := by
      by_contra h
      exact hn (Or.inl h)
    have hb : p.b = 1 := hax.resolve_right hn
    have hb2 : p.b2 = 1 := by unfold Par.b2; rw [hb]; norm_num
    have s1 : ∀ β R z φ, I p β (R * cos φ) (R * sin φ) z = I p β R 0 z := fun β R z φ => K_sym hb _ _ _ _ _
    have s2 : ∀ β γ R z φ, J p β γ (R * cos φ) (R * sin φ) z = J p β γ R 0 z := fun β γ R z φ => K_sym hb _ _ _ _ _
    cases m
    all_goals simp only [Method.get, full, pot, phi_axi hn, Coords.cyl_to_rect, cos_zero, sin_zero, mul_one, mul_zero,
      RforceOf, zforceOf, phitorqueOf, R2derivOf, RzderivOf, phi2derivOf, RphiderivOf, phizderivOf, fromFrame, ha,
      xyzforces, xyzhess, toFrame, hessIntAll_gl hg, forceIntAll_eq, s1, s2, hb2, cos_two_mul', J_comm 1 p.c2]
    all_goals
      have hcs : sin φ ^ 2 = 1 - cos φ ^ 2 := by linarith [sin_sq_add_cos_sq φ]
      ring_nf
      try simp only [hcs, show sin φ ^ 4 = (1 - cos φ ^ 2) ^ 2 by rw [← hcs]; ring,
        show sin φ ^ 3 = sin φ * (1 - cos φ ^ 2) by rw [← hcs]; ring]
      try ring_nf

theorem cRotate_eq (q : ℝ × ℝ × ℝ) : cRotate p q = toFrame p q := by
  unfold cRotate toFrame
  cases p.rot with
  | none => rfl
  | some M => simp [Matrix.mulVec, dotProduct, Fin.sum_univ_three]

theorem cRotateForce_eq (q : ℝ × ℝ × ℝ) : cRotateForce p q = fromFrame p q := by
  unfold cRotateForce fromFrame
  cases p.rot with
  | none => rfl
  | some M => simp [Matrix.mulVec, dotProduct, Fin.sum_univ_three]

variable {prof : Profile} {l : List (ℝ × ℝ)}

theorem cEval_eq (hg : p.gl = some l) (hs : prof.Same p.prof) (hax : p.b = 1 ∨ p.isNonAxi) (amp R z φ t : ℝ) :
    cEval p prof l amp R z φ = amp * (pot p).val R z φ t := by
  have e1 : (pot p).val R z φ t = evaluateXyz p (toFrame p (R * cos φ, R * sin φ, z)).1
      (toFrame p (R * cos φ, R * sin φ, z)).2.1 (toFrame p (R * cos φ, R * sin φ, z)).2.2 := by
    by_cases hn : p.isNonAxi
    · simp only [pot, evaluate, phi_nonaxi hn, Coords.cyl_to_rect]
    · have ha : p.rot = none := by
        by_contra h
        exact hn (Or.inl h)
      simp only [pot, evaluate, phi_axi hn, Coords.cyl_to_rect, toFrame, ha, evaluateXyz_eq,
        K_sym (hax.resolve_right hn)]
  rw [e1]
  simp only [cEval, cRotate_eq, evaluateXyz, potInt, hg, cGl, List.map_map]
  rw [← List.sum_map_mul_left, ← List.sum_map_mul_left, ← List.sum_map_mul_left]
  congr 2
  funext n
  simp only [Function.comp_apply, (hs _ (sqrt_nonneg _)).1]
  have : ∀ s : ℝ, 1 / s / s = 1 / s ^ 2 := fun s => by rw [div_div, sq]
  simp only [this, ← sq]
  ring

theorem cDens_eq (hs : prof.Same p.prof) (amp R z φ t : ℝ) :
    cDens p prof amp R z φ = amp * (pot p).dens R z φ t := by
  simp only [cDens, cRotate_eq, pot, dens, Coords.cyl_to_rect, (hs _ (sqrt_nonneg _)).2.1, ← sq]

theorem cxyzforces_eq (hg : p.gl = some l) (hs : prof.Same p.prof) (q : ℝ × ℝ × ℝ) :
    cxyzforces p prof l q = fromFrame p (xyzforces p q) := by
  have : ∀ s : ℝ, 1 / s / s = 1 / s ^ 2 := fun s => by rw [div_div, sq]
  rw [← cRotateForce_eq]
  simp only [cxyzforces, cRotate_eq, xyzforces]
  congr 1
  simp only [forceIntAll, hg, cGl, List.map_map, Prod.mk.injEq]
  refine ⟨?_, ?_, ?_⟩ <;> rw [← List.sum_map_mul_left] <;> congr 2 <;> funext n <;>
    simp only [Function.comp_apply, (hs _ (sqrt_nonneg _)).2.1, this, ← sq, mul_one_div, div_eq_mul_inv, one_mul] <;> ring

theorem cxyzhess_eq (hg : p.gl = some l) (hs : prof.Same p.prof) (q : ℝ × ℝ × ℝ) :
    cxyzhess p prof l q = xyzhess p q := by
  have : ∀ s : ℝ, 1 / s / s = 1 / s ^ 2 := fun s => by rw [div_div, sq]
  simp only [cxyzhess, xyzhess, hessIntAll, hg, cGl, List.map_map, Hess.mk.injEq]
  refine ⟨?_, ?_, ?_, ?_, ?_, ?_⟩ <;> rw [← List.sum_map_mul_left] <;> congr 2 <;> funext n <;>
    simp only [Function.comp_apply, (hs _ (sqrt_nonneg _)).2.1, (hs _ (sqrt_nonneg _)).2.2, this, ← sq, mul_one_div,
      div_eq_mul_inv, one_mul] <;> ring

/-- C: the remembered forces are right, and so are the second derivatives unless remembered for the centre. -/
def CCache.Valid (p : Par) (s : CCache) : Prop :=
  s.F = fromFrame p (xyzforces p s.fq) ∧ (s.hq = (0, 0, 0) ∨ s.H = xyzhess p s.hq)

theorem initial_valid (p : Par) : CCache.Valid p {} := by
  refine ⟨?_, Or.inl rfl⟩
  have h0 : xyzforces p (0, 0, 0) = (0, 0, 0) := by
    have e : toFrame p (0, 0, 0) = (0, 0, 0) := by
      unfold toFrame
      cases p.rot with
      | none => rfl
      | some M => simp [Matrix.mulVec, dotProduct, Fin.sum_univ_three]
    simp [xyzforces, e, forceIntAll_eq]
  have e : fromFrame p (0, 0, 0) = (0, 0, 0) := by
    unfold fromFrame
    cases p.rot with
    | none => rfl
    | some M => simp [Matrix.mulVec, dotProduct, Fin.sum_univ_three]
  change (0, 0, 0) = fromFrame p (xyzforces p (0, 0, 0))
  rw [h0, e]

theorem cGetForces_eq (hg : p.gl = some l) (hs : prof.Same p.prof) {s : CCache} (h : s.Valid p) (q : ℝ × ℝ × ℝ) :
    (cGetForces p prof l s q).Valid p ∧ (cGetForces p prof l s q).F = fromFrame p (xyzforces p q) := by
  unfold cGetForces
  split_ifs with hq
  · exact ⟨h, by rw [hq]; exact h.1⟩
  · exact ⟨⟨cxyzforces_eq hg hs q, h.2⟩, cxyzforces_eq hg hs q⟩

theorem cGetHess_eq (hg : p.gl = some l) (hs : prof.Same p.prof) {s : CCache} (h : s.Valid p) {q : ℝ × ℝ × ℝ}
    (h0 : q ≠ (0, 0, 0)) :
    (cGetHess p prof l s q).Valid p ∧ (cGetHess p prof l s q).H = xyzhess p q
      ∧ (cGetHess p prof l s q).F = s.F := by
  unfold cGetHess
  split_ifs with hq
  · refine ⟨h, ?_, rfl⟩
    rcases h.2 with h2 | h2
    · exact absurd (hq.trans h2) h0
    · rw [hq]; exact h2
  · exact ⟨⟨h.1, Or.inr (cxyzhess_eq hg hs q)⟩, cxyzhess_eq hg hs q, rfl⟩

/-- A call the C code is used for: a force, or a second derivative in an aligned frame away from the centre. -/
def Allowed (p : Par) (m : Method) (R z : ℝ) : Prop := m.isForce ∨ (p.rot = none ∧ (R ≠ 0 ∨ z ≠ 0))

theorem cCall_eq (hg : p.gl = some l) (hs : prof.Same p.prof) (hax : p.b = 1 ∨ p.isNonAxi) (amp : ℝ) {s : CCache}
    (h : s.Valid p) {m : Method} {R z : ℝ} (φ : ℝ) (hm : Allowed p m R z) :
    (cCall p prof l amp s m R z φ).1.Valid p
    ∧ (cCall p prof l amp s m R z φ).2 = amp * m.get (pot p) R z φ := by
  rw [get_eq_full hg hax]
  have f := cGetForces_eq hg hs h (R * cos φ, R * sin φ, z)
  by_cases hf : m.isForce
  · cases m <;> simp only [Method.isForce, Bool.false_eq_true] at hf
    all_goals
      refine ⟨f.1, ?_⟩
      simp only [cCall, full, f.2, RforceOf, phitorqueOf, zforceOf]
      try ring
  · have hm' := hm.resolve_left hf
    have hq : (R * cos φ, R * sin φ, z) ≠ (0, 0, 0) := by
      intro e
      simp only [Prod.mk.injEq] at e
      have : R ^ 2 = 0 := by
        have h1 := sin_sq_add_cos_sq φ
        calc R ^ 2 = (R * cos φ) ^ 2 + (R * sin φ) ^ 2 := by linear_combination (-R ^ 2) * h1
          _ = 0 := by rw [e.1, e.2.1]; ring
      rcases hm'.2 with h2 | h2
      · exact h2 (pow_eq_zero_iff two_ne_zero |>.1 this)
      · exact h2 e.2.2
    have g := cGetHess_eq hg hs h hq
    have k := cGetHess_eq hg hs f.1 hq
    have ff : ∀ F, fromFrame p F = F := fun F => by simp [fromFrame, hm'.1]
    cases m <;> simp only [Method.isForce, not_true_eq_false] at hf
    case R2deriv => exact ⟨g.1, by simp only [cCall, full, g.2.1, R2derivOf]; ring⟩
    case z2deriv => exact ⟨g.1, by simp only [cCall, full, g.2.1]⟩
    case Rzderiv => exact ⟨g.1, by simp only [cCall, full, g.2.1, RzderivOf]⟩
    case phizderiv => exact ⟨g.1, by simp only [cCall, full, g.2.1, phizderivOf]; ring⟩
    case phi2deriv => exact ⟨k.1, by simp only [cCall, full, k.2.1, k.2.2, f.2, ff, phi2derivOf]; ring⟩
    case Rphideriv => exact ⟨k.1, by simp only [cCall, full, k.2.1, k.2.2, f.2, ff, RphiderivOf]; ring⟩

theorem cCalls_eq (hg : p.gl = some l) (hs : prof.Same p.prof) (hax : p.b = 1 ∨ p.isNonAxi) (amp : ℝ) {s : CCache}
    (k : List (Method × ℝ × ℝ × ℝ)) (h : s.Valid p) (hm : ∀ c ∈ k, Allowed p c.1 c.2.1 c.2.2.1) :
    cCalls p prof l amp s k = k.map fun c => amp * c.1.get (pot p) c.2.1 c.2.2.1 c.2.2.2 := by
  induction k generalizing s with
  | nil => rfl
  | cons c k ih =>
    obtain ⟨m, R, z, φ⟩ := c
    have := cCall_eq hg hs hax amp h φ (hm (m, R, z, φ) (by simp))
    simp only [cCalls, List.map_cons, this.2, ih this.1 fun c hc => hm c (by simp [hc])]

end Verif.Ellipsoidal
