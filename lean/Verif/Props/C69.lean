import Verif.Props.C32

set_option autoImplicit false

/-!
# C69: inputs with units and outputs of action-angle methods

Specification: an input is an internal number or a quantity; a method has to see the internal number of the quantity.  An
output has to be the internal numbers times their internal units.
-/

namespace Verif

open Conversion

/-- The internal number that an input of dimension `d` stands for. -/
noncomputable def C69Spec.internal (k : Consts) (ro vo : ℝ) (d : Dim) : Input → ℝ
  | .number x => x
  | .quantity x => x.base / C31Spec.internalUnit k ro vo d

/-- The input is a number or has dimension `d`. -/
def C69Spec.HasDim (d : Dim) : Input → Prop
  | .number _ => True
  | .quantity x => x.dim = d

theorem C69aux.length (k : Consts) (ro vo : ℝ) (x : Input) (h : C69Spec.HasDim ⟨1, 0, 0, 0⟩ x) :
    parse kpc ro x = .ok (C69Spec.internal k ro vo ⟨1, 0, 0, 0⟩ x) := by
  cases x with
  | number x => rfl
  | quantity x =>
    have h' : x.dim = ⟨1, 0, 0, 0⟩ := h
    simp [parse, Qty.to, kpc, h', Except.map, C69Spec.internal, C31Spec.internalUnit]

theorem C69aux.lengths (k : Consts) (ro vo : ℝ) (xs : List Input) (h : ∀ x ∈ xs, C69Spec.HasDim ⟨1, 0, 0, 0⟩ x) :
    xs.mapM (parse kpc ro) = .ok (xs.map (C69Spec.internal k ro vo ⟨1, 0, 0, 0⟩)) := by
  induction xs with
  | nil => rfl
  | cons a xs ih =>
    rw [List.mapM_cons, C69aux.length k ro vo a (h a (by simp)), ih fun x hx => h x (by simp [hx])]
    rfl

theorem C69aux.optional (p : Input → Except Err ℝ) (f : Input → ℝ) (x : Option Input) (h : ∀ y ∈ x, p y = .ok (f y)) :
    optInput p x = .ok (x.map f) := by
  cases x with
  | none => rfl
  | some y => simp [optInput, h y rfl, Except.map]

theorem C69aux.angle (k : Consts) (ro vo : ℝ) (x : Input) (h : C69Spec.HasDim ⟨0, 0, 0, 1⟩ x) :
    parse rad 1 x = .ok (C69Spec.internal k ro vo ⟨0, 0, 0, 1⟩ x) := by
  cases x with
  | number x => rfl
  | quantity x =>
    have h' : x.dim = ⟨0, 0, 0, 1⟩ := h
    simp [parse, Qty.to, rad, h', Except.map, C69Spec.internal, C31Spec.internalUnit]

theorem C69aux.time (k : Consts) (hk : k.Pos) (ro vo : ℝ) (hro : 0 < ro) (hvo : 0 < vo) (x : Input)
    (h : C69Spec.HasDim ⟨1, -1, 0, 0⟩ x) :
    parse (Gyr k) (time_in_Gyr k vo ro) x = .ok (C69Spec.internal k ro vo ⟨1, -1, 0, 0⟩ x) := by
  cases x with
  | number x => rfl
  | quantity x => exact (C31_parsers k hk ro vo hro hvo).2.2.2.1 x h

theorem C69aux.velocity (k : Consts) (ro vo : ℝ) (b : Bool) (x : Input) (h : C69Spec.HasDim ⟨0, 1, 0, 0⟩ x)
    (hb : ∀ y, x = .quantity y → b = true) : inputV vo b x = .ok (C69Spec.internal k ro vo ⟨0, 1, 0, 0⟩ x) := by
  cases x with
  | number x => rfl
  | quantity x =>
    have h' : x.dim = ⟨0, 1, 0, 0⟩ := h
    simp [inputV, Qty.to, Conversion.kms, h', C69Spec.internal, C31Spec.internalUnit, hb x rfl]

theorem C69aux.mass (k : Consts) (hk : k.Pos) (ro vo : ℝ) (hro : 0 < ro) (hvo : 0 < vo) (x : Input)
    (h : C69Spec.HasDim ⟨0, 0, 1, 0⟩ x) : inputM k ro vo x = .ok (C69Spec.internal k ro vo ⟨0, 0, 1, 0⟩ x) := by
  cases x with
  | number x => rfl
  | quantity x =>
    have h' : x.dim = ⟨0, 0, 1, 0⟩ := h
    have hG := hk.G.ne'
    have hr := hro.ne'
    have hv := hvo.ne'
    simp [inputM, Qty.to, msun, h', Except.map, C69Spec.internal, C31Spec.internalUnit, C31Spec.massUnit, C31Spec.newton,
      mass_in_msol, orElse, zpow_ofNat]
    field_simp
    norm_num

/-- **C69 (inputs of potentials).** Quantities for positions as positional arguments, and for the azimuth, time, radius,
height, mass and velocity as keywords, are replaced by the internal numbers they stand for, in the scales given as keywords or else
those of the potential.  For a velocity with a unit this is proved only when the time or a mass is given too. -/
theorem C69_potential_inputs_partial (k : Consts) (hk : k.Pos) (potRo potVo : ℝ) (a : Args) (hro : 0 < a.ro.getD potRo)
    (hvo : 0 < a.vo.getD potVo) (hpos : ∀ x ∈ a.positional, C69Spec.HasDim ⟨1, 0, 0, 0⟩ x)
    (hphi : ∀ x ∈ a.phi, C69Spec.HasDim ⟨0, 0, 0, 1⟩ x) (ht : ∀ x ∈ a.t, C69Spec.HasDim ⟨1, -1, 0, 0⟩ x)
    (hR : ∀ x ∈ a.R, C69Spec.HasDim ⟨1, 0, 0, 0⟩ x) (hz : ∀ x ∈ a.z, C69Spec.HasDim ⟨1, 0, 0, 0⟩ x)
    (hv : ∀ x ∈ a.v, C69Spec.HasDim ⟨0, 1, 0, 0⟩ x) (hM : ∀ x ∈ a.M, C69Spec.HasDim ⟨0, 0, 1, 0⟩ x)
    (hbound : ∀ x, a.v = some (.quantity x) → a.t.isSome ∨ a.M.isSome) :
    let internal := C69Spec.internal k (a.ro.getD potRo) (a.vo.getD potVo)
    potential_physical_input k potRo potVo a = .ok
      ⟨a.positional.map (internal ⟨1, 0, 0, 0⟩), a.phi.map (internal ⟨0, 0, 0, 1⟩), a.t.map (internal ⟨1, -1, 0, 0⟩),
        a.R.map (internal ⟨1, 0, 0, 0⟩), a.z.map (internal ⟨1, 0, 0, 0⟩), a.v.map (internal ⟨0, 1, 0, 0⟩),
        a.M.map (internal ⟨0, 0, 1, 0⟩)⟩ := by
  intro internal
  unfold potential_physical_input
  dsimp only
  rw [C69aux.lengths k (a.ro.getD potRo) (a.vo.getD potVo) a.positional hpos,
    C69aux.optional _ (internal ⟨0, 0, 0, 1⟩) a.phi fun y hy => C69aux.angle k _ _ y (hphi y hy),
    C69aux.optional _ (internal ⟨1, -1, 0, 0⟩) a.t fun y hy => C69aux.time k hk _ _ hro hvo y (ht y hy),
    C69aux.optional _ (internal ⟨1, 0, 0, 0⟩) a.R fun y hy => C69aux.length k _ _ y (hR y hy),
    C69aux.optional _ (internal ⟨1, 0, 0, 0⟩) a.z fun y hy => C69aux.length k _ _ y (hz y hy),
    C69aux.optional _ (internal ⟨0, 1, 0, 0⟩) a.v fun y hy => C69aux.velocity k _ _ _ y (hv y hy) (by
      rintro w rfl
      simpa using hbound w hy),
    C69aux.optional _ (internal ⟨0, 0, 1, 0⟩) a.M fun y hy => C69aux.mass k hk _ _ hro hvo y (hM y hy)]
  rfl

/-- **C69 (velocity with a unit).** For a velocity-dependent force given a velocity with a unit but no time, the decorator
uses a variable that is not bound. -/
theorem C69_velocity_fails (k : Consts) (potRo potVo R v : ℝ) : potential_physical_input k potRo potVo
    { positional := [.number R], v := some (.quantity ⟨v, 0, 1, 0, 0⟩) } = .error .unbound := by
  simp [potential_physical_input, parse, optInput, inputV, Qty.to, Conversion.kms, bind, Except.bind, Except.map, pure,
    Except.pure]

/-- **C69 (positional azimuth or time with a unit).** Quantities that are positional arguments are taken as lengths: an azimuth
or a time with a unit is refused there, whatever the other arguments. -/
theorem C69_positional_fails (k : Consts) (potRo potVo : ℝ) (a : Args) (x : Qty) (before after : List Input)
    (hbefore : ∀ y ∈ before, C69Spec.HasDim ⟨1, 0, 0, 0⟩ y)
    (hpos : a.positional = before ++ .quantity x :: after) (hx : x.dim = ⟨0, 0, 0, 1⟩ ∨ x.dim = ⟨1, -1, 0, 0⟩) :
    potential_physical_input k potRo potVo a = .error .unitConversion := by
  have h : a.positional.mapM (parse kpc (a.ro.getD potRo)) = .error .unitConversion := by
    rw [hpos, List.mapM_append, C69aux.lengths k (a.ro.getD potRo) (a.vo.getD potVo) before hbefore, List.mapM_cons]
    have : parse kpc (a.ro.getD potRo) (.quantity x) = .error .unitConversion := by
      rcases hx with hx | hx <;> simp [parse, Qty.to, kpc, hx, Except.map]
    rw [this]
    rfl
  unfold potential_physical_input
  dsimp only
  rw [h]
  rfl

/-- A position in kpc, an azimuth in degrees and a time in Gyr. -/
example : potential_physical_input fallback 8 220
    { positional := [.quantity ⟨16, 1, 0, 0, 0⟩, .number 0], phi := some (.quantity deg) }
    = .ok ⟨[2, 0], some (Real.pi / 180), none, none, none, none, none⟩ := by
  simp [potential_physical_input, parse, optInput, Qty.to, kpc, rad, deg, bind, Except.bind, Except.map, pure, Except.pure]
  norm_num

/-! ### Action-angle methods -/

/-- Entry by entry: output number times unit is the internal number times the internal unit. -/
def C69Spec.Scaled (k : Consts) (ro vo : ℝ) : List Qty → List ℝ → List ℝ → Prop
  | [], [], [] => True
  | u :: us, x :: xs, y :: ys => y * u.base = x * C31Spec.internalUnit k ro vo u.dim ∧ C69Spec.Scaled k ro vo us xs ys
  | _, _, _ => False

/-- The units that the documentation promises for the entries of the outputs, in one and three dimensions. -/
noncomputable def C69Spec.units (k : Consts) : AAMethod → Bool → List Qty
  | .call, true => [kpckms, kpckms, kpckms]
  | .call, false => []
  | .actionsFreqs, true => [kpckms, kpckms, kpckms, perGyr k, perGyr k, perGyr k]
  | .actionsFreqs, false => [kpckms, perGyr k]
  | .actionsFreqsAngles, true => [kpckms, kpckms, kpckms, perGyr k, perGyr k, perGyr k, rad, rad, rad]
  | .actionsFreqsAngles, false => [kpckms, perGyr k, rad]
  | .EccZmaxRperiRap, _ => [⟨1, 0, 0, 0, 0⟩, kpc, kpc, kpc]

/-- The units for the inverse methods. -/
noncomputable def C69Spec.inverseUnits (k : Consts) : AAInverseMethod → Bool → List Qty
  | .call, true => [kpc, Conversion.kms, Conversion.kms, kpc, Conversion.kms, rad]
  | .call, false => [kpc, Conversion.kms]
  | .xvFreqs, true =>
    [kpc, Conversion.kms, Conversion.kms, kpc, Conversion.kms, rad, perGyr k, perGyr k, perGyr k]
  | .xvFreqs, false => [kpc, Conversion.kms, perGyr k]
  | .Freqs, true => [perGyr k, perGyr k, perGyr k]
  | .Freqs, false => []

theorem C69aux.scale (k : Consts) (ro vo : ℝ) (us : List Qty) (fs xs : List ℝ) (hlen : xs.length = us.length)
    (hf : List.Forall₂ (fun f u => f * u.base = C31Spec.internalUnit k ro vo u.dim) (fs.take us.length) us) :
    ∃ ys, scaleAll xs fs = .ok ys ∧ C69Spec.Scaled k ro vo us xs ys := by
  induction us generalizing fs xs with
  | nil =>
    obtain rfl := List.length_eq_zero_iff.1 hlen
    exact ⟨[], rfl, trivial⟩
  | cons u us ih =>
    obtain _ | ⟨x, xs⟩ := xs
    · simp at hlen
    obtain _ | ⟨f, fs⟩ := fs
    · simp at hf
    simp only [List.length_cons, List.take_succ_cons] at hf
    obtain ⟨h1, h2⟩ := List.forall₂_cons.1 hf
    obtain ⟨ys, e, hs⟩ := ih fs xs (by simpa using hlen) h2
    refine ⟨x * f :: ys, by simp [scaleAll, e, Except.map], ?_, hs⟩
    rw [mul_assoc, h1]

/-- **C69 (outputs of action-angle methods).** With both scales known, tuples of actions, frequencies and angles, in three or
one dimensions, and eccentricity, maximum height, pericentre and apocentre, are each multiplied by their internal unit. -/
theorem C69_outputs (k : Consts) (hk : k.Pos) (m : AAMethod) (three : Bool) (ro vo : ℝ) (hro : 0 < ro) (hvo : 0 < vo)
    (kw : Kwargs) (hu : kw.use_physical ≠ some false) (hr : kw.ro = none) (hv : kw.vo = none) (xs : List ℝ)
    (hlen : xs.length = (C69Spec.units k m three).length) :
    ∃ ys, physical_conversion_actionAngle k m (C32Spec.obj ro vo true true) kw (.seq xs) = .ok (.seq ys)
      ∧ C69Spec.Scaled k ro vo (C69Spec.units k m three) xs ys := by
  have hK := hk.kms.ne'
  have hu' : kw.use_physical.getD true = true := by
    rcases e : kw.use_physical with _ | _ | _ <;> simp_all
  obtain ⟨ys, e, hs⟩ := C69aux.scale k ro vo (C69Spec.units k m three) (aaFactors k m ro vo xs.length) xs hlen (by
    rw [hlen]
    have e0 : freq_in_Gyr k vo ro * (1 / k.kms) = ro⁻¹ * vo := by
      simp only [freq_in_Gyr]
      field_simp
    cases m <;> cases three <;> simp [C69Spec.units, aaFactors, C31Spec.internalUnit, kpckms, perGyr, rad, kpc, ← e0])
  refine ⟨ys, ?_, hs⟩
  simp [physical_conversion_actionAngle, hu', hr, hv, C32Spec.obj, e, Except.map]

/-- **C69 (outputs of inverse action-angle methods).** Positions, velocities, azimuth and frequencies are each multiplied by
their internal unit. -/
theorem C69_inverse_outputs (k : Consts) (hk : k.Pos) (m : AAInverseMethod) (three : Bool) (ro vo : ℝ) (hro : 0 < ro)
    (hvo : 0 < vo) (kw : Kwargs) (hu : kw.use_physical ≠ some false) (hr : kw.ro = none) (hv : kw.vo = none) (xs : List ℝ)
    (hlen : xs.length = (C69Spec.inverseUnits k m three).length) :
    ∃ ys, physical_conversion_actionAngleInverse k m (C32Spec.obj ro vo true true) kw (.seq xs) = .ok (.seq ys)
      ∧ C69Spec.Scaled k ro vo (C69Spec.inverseUnits k m three) xs ys := by
  have hK := hk.kms.ne'
  have hu' : kw.use_physical.getD true = true := by
    rcases e : kw.use_physical with _ | _ | _ <;> simp_all
  obtain ⟨ys, e, hs⟩ := C69aux.scale k ro vo (C69Spec.inverseUnits k m three) (aaInverseFactors k m ro vo xs.length) xs hlen
    (by
      rw [hlen]
      have e0 : freq_in_Gyr k vo ro * (1 / k.kms) = ro⁻¹ * vo := by
        simp only [freq_in_Gyr]
        field_simp
      cases m <;> cases three <;>
        simp [C69Spec.inverseUnits, aaInverseFactors, C31Spec.internalUnit, Conversion.kms, perGyr, rad, kpc, ← e0])
  refine ⟨ys, ?_, hs⟩
  simp [physical_conversion_actionAngleInverse, hu', hr, hv, C32Spec.obj, e, Except.map]

/-- **C69 (no scales, no conversion).** Without scales, or with `use_physical=False`, the output is unchanged. -/
theorem C69_unchanged (k : Consts) (m : AAMethod) (m' : AAInverseMethod) (ro vo : ℝ) (roSet voSet : Bool) (kw : Kwargs)
    (out : AAOut) (h : kw.use_physical = some false ∨ (kw.ro = none ∧ roSet = false) ∨ (kw.vo = none ∧ voSet = false)) :
    physical_conversion_actionAngle k m (C32Spec.obj ro vo roSet voSet) kw out = .ok out
      ∧ physical_conversion_actionAngleInverse k m' (C32Spec.obj ro vo roSet voSet) kw out = .ok out := by
  rcases h with h | ⟨h1, h2⟩ | ⟨h1, h2⟩
  · simp [physical_conversion_actionAngle, physical_conversion_actionAngleInverse, h]
  · constructor <;> simp [physical_conversion_actionAngle, physical_conversion_actionAngleInverse, h1, h2, C32Spec.obj]
  · constructor <;> simp [physical_conversion_actionAngle, physical_conversion_actionAngleInverse, h1, h2, C32Spec.obj]

/-- **C69 (actions of arrays in one dimension).** In one dimension the method returns an array with an action for each input
point.  With more than three points the decorator runs out of factors and raises an `IndexError`. -/
theorem C69_array_fails (k : Consts) (ro vo : ℝ) (xs : List ℝ) (h : 3 < xs.length) :
    physical_conversion_actionAngle k .call (C32Spec.obj ro vo true true) {} (.seq xs) = .error .index := by
  obtain _ | ⟨a, _ | ⟨b, _ | ⟨c, _ | ⟨d, xs⟩⟩⟩⟩ := xs <;> simp at h
  simp [physical_conversion_actionAngle, C32Spec.obj, scaleAll, aaFactors, Except.map]

/-- **C69 (inputs of action-angle methods).** A position, a velocity or an angle with a unit, in any argument, is replaced
by the internal number, other units are refused and numbers are unchanged. -/
theorem C69_inputs (k : Consts) (ro vo : ℝ) (d : Dim) (x : Input) (h : C69Spec.HasDim d x) :
    (d = ⟨1, 0, 0, 0⟩ ∨ d = ⟨0, 1, 0, 0⟩ ∨ d = ⟨0, 0, 0, 1⟩ → aaInput ro vo x = .ok (C69Spec.internal k ro vo d x))
      ∧ (d = ⟨1, 1, 0, 0⟩ ∨ d = ⟨0, 0, 0, 1⟩ → aaInverseInput ro vo x = .ok (C69Spec.internal k ro vo d x))
      ∧ (∀ y, x = .quantity y → ¬ (d = ⟨1, 0, 0, 0⟩ ∨ d = ⟨0, 1, 0, 0⟩ ∨ d = ⟨0, 0, 0, 1⟩) →
        aaInput ro vo x = .error .unitConversion)
      ∧ (∀ y, x = .quantity y → ¬ (d = ⟨1, 1, 0, 0⟩ ∨ d = ⟨0, 0, 0, 1⟩) →
        aaInverseInput ro vo x = .error .unitConversion) := by
  cases x with
  | number x => exact ⟨fun _ => rfl, fun _ => rfl, fun _ h => by simp at h, fun _ h => by simp at h⟩
  | quantity x =>
    have h' : x.dim = d := h
    refine ⟨?_, ?_, ?_, ?_⟩
    · rintro (rfl | rfl | rfl) <;> simp [aaInput, orElse, Qty.to, h', kpc, Conversion.kms, rad, Except.map, C69Spec.internal,
        C31Spec.internalUnit]
    · rintro (rfl | rfl) <;> simp [aaInverseInput, orElse, Qty.to, h', kpckms, rad, Except.map, C69Spec.internal,
        C31Spec.internalUnit, div_div]
    · rintro y hy hd
      simp only [not_or] at hd
      simp [aaInput, orElse, Qty.to, h', kpc, Conversion.kms, rad, Except.map, hd.1, hd.2.1, hd.2.2]
    · rintro y hy hd
      simp only [not_or] at hd
      simp [aaInverseInput, orElse, Qty.to, h', kpckms, rad, Except.map, hd.1, hd.2]

example : physical_conversion_actionAngle fallback .actionsFreqsAngles (C32Spec.obj 8 220 true true) {} (.seq [1, 2, 3])
    = .ok (.seq [8 * 220, 2 * freq_in_Gyr fallback 220 8, 3]) := by
  simp [physical_conversion_actionAngle, C32Spec.obj, scaleAll, aaFactors, Except.map]

end Verif
