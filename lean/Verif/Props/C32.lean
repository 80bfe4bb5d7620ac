import Verif.Props.C31

set_option autoImplicit false

/-!
# C32: when a method returns physical units

Specification: scales given as keywords go before the scales set in the object; the output is converted when conversion is
not switched off and the scales on which the unit depends are known; otherwise the number in internal units is returned.
-/

namespace Verif

open Conversion

/-- The scale that is known: the keyword if given, otherwise the object's if it was set. -/
def C32Spec.known (kw : Option ℝ) (value : ℝ) (set : Bool) : Option ℝ :=
  match kw with
  | some x => some x
  | none => if set then some value else none

/-- Conversion is requested: not switched off, and not the logarithm of the result. -/
def C32Spec.requested (kw : Kwargs) : Prop := kw.use_physical ≠ some false ∧ kw.log ≠ some true

/-- The unit of the quantity depends on the length scale: its dimension involves a length at fixed velocity, or a mass. -/
def C32Spec.needsRo (q : Kind) : Prop :=
  (C31Spec.dimension q).L + (C31Spec.dimension q).T ≠ 0 ∨ (C31Spec.dimension q).M ≠ 0

/-- The unit of the quantity depends on the velocity scale. -/
def C32Spec.needsVo (q : Kind) : Prop := (C31Spec.dimension q).T ≠ 0 ∨ (C31Spec.dimension q).M ≠ 0

/-- An object with scales `ro`, `vo`, and whether they were set. -/
def C32Spec.obj (ro vo : ℝ) (roSet voSet : Bool) : Obj := ⟨some ro, some roSet, some vo, some voSet⟩

/-- The number has been converted: multiplied by a factor that depends on the scales, or given a unit. -/
def C32Spec.Converted : Output → Prop
  | .physical _ | .quantity _ _ => True
  | _ => False

theorem C32aux.output_eq (ro vo : ℝ) (roSet voSet : Bool) (kw : Kwargs) (q : Kind) (hq : q.always = false) :
    Conversion.physical_output (C32Spec.obj ro vo roSet voSet) kw q
      = .ok ((kw.use_physical.getD true && !kw.log.getD false)
          && !(q.voNecessary && (C32Spec.known kw.vo vo voSet).isNone)
          && !(q.roNecessary && (C32Spec.known kw.ro ro roSet).isNone), C32Spec.known kw.ro ro roSet,
          C32Spec.known kw.vo vo voSet) := by
  obtain ⟨u, l, r, v, -, -⟩ := kw
  unfold Conversion.physical_output C32Spec.obj
  rw [hq]
  cases r <;> cases v <;> cases roSet <;> cases voSet <;> simp [bind, Except.bind, C32Spec.known]

theorem C32aux.requested_iff (kw : Kwargs) :
    C32Spec.requested kw ↔ (kw.use_physical.getD true && !kw.log.getD false) = true := by
  obtain ⟨u, l, -, -, -, -⟩ := kw
  rcases u with _ | _ | _ <;> rcases l with _ | _ | _ <;> simp [C32Spec.requested]

/-- The quantities for which the code's tables of the scales agree with the dimension of the quantity. -/
def C32Spec.regular (q : Kind) : Prop :=
  q.always = false ∧ q ≠ .angle ∧ q ≠ .massenergydensity ∧ q ≠ .numberdensity ∧ q ≠ .numbersurfacedensity

theorem C32aux.ro_iff (q : Kind) (hq : C32Spec.regular q) : C32Spec.needsRo q ↔ q.roNecessary = true := by
  cases q <;> simp [C32Spec.needsRo, C31Spec.dimension, Kind.roNecessary, Kind.always, C32Spec.regular] at *

theorem C32aux.vo_iff (q : Kind) (hq : C32Spec.regular q) : C32Spec.needsVo q ↔ q.voNecessary = true := by
  cases q <;> simp [C32Spec.needsVo, C31Spec.dimension, Kind.voNecessary, Kind.always, C32Spec.regular] at *

theorem C32aux.factor_eq (k : Consts) (q : Kind) (r? v? : Option ℝ) (r v : ℝ)
    (h1 : C32Spec.needsRo q → r? = some r) (h2 : C32Spec.needsVo q → v? = some v) (a b : Bool) :
    q.factor k v? r? a b = q.factor k (some v) (some r) a b := by
  cases q <;> simp [C32Spec.needsVo, C32Spec.needsRo, C31Spec.dimension] at h1 h2 <;> simp_all [Kind.factor]

theorem C32aux.factor_flag (k : Consts) (q : Kind) (r v : ℝ) (a b : Bool) (h : q = .frequency → a = false → b = false) :
    q.factor k (some v) (some r) a b = q.factor k (some v) (some r) a false := by
  cases q <;> first | rfl | (cases a <;> cases b <;> simp_all [Kind.factor])

theorem C32aux.factor_ok (k : Consts) (q : Kind) (r v : ℝ) (a b : Bool) :
    ∃ fac, q.factor k (some v) (some r) a b = .ok fac := by
  cases q <;> first | exact ⟨_, rfl⟩ | (cases a <;> cases b <;> exact ⟨_, rfl⟩)

/-- **C32 (the decision).** For the regular quantities: the output is converted exactly when conversion is requested and the
scales on which the unit depends are known; the factor is the internal unit, for the scales given as keywords or else
those of the object; otherwise the number is returned unchanged. -/
theorem C32_decision_partial (k : Consts) (hk : k.Pos) (apy : Bool) (q : Kind) (hq : C32Spec.regular q)
    (ro vo : ℝ) (roSet voSet : Bool) (kw : Kwargs) (x : ℝ) :
    let r? := C32Spec.known kw.ro ro roSet
    let v? := C32Spec.known kw.vo vo voSet
    let convert := C32Spec.requested kw ∧ (C32Spec.needsRo q → r?.isSome) ∧ (C32Spec.needsVo q → v?.isSome)
    let result := physical_conversion k apy q (C32Spec.obj ro vo roSet voSet) kw (some x)
    (convert → ∃ fac, result = .ok (if kw.quantity.getD apy then .quantity (x * fac) (q.unit k) else .physical (x * fac))
        ∧ ∀ r v, (C32Spec.needsRo q → r? = some r) → (C32Spec.needsVo q → v? = some v) → 0 < r → 0 < v →
          (q = .frequency → kw.quantity.getD apy = false → kw.kmskpc.getD false = false) →
          fac * (q.unit k).base = C31Spec.internalUnit k r v (q.unit k).dim)
      ∧ (¬ convert → result = .ok (.internal x (kw.use_physical.getD false))) := by
  intro r? v? convert result
  have hres : result = physical_conversion k apy q (C32Spec.obj ro vo roSet voSet) kw (some x) := rfl
  have hconv : convert ↔ (kw.use_physical.getD true && !kw.log.getD false && !(q.voNecessary && v?.isNone)
      && !(q.roNecessary && r?.isNone)) = true := by
    have e : convert ↔ C32Spec.requested kw ∧ (C32Spec.needsRo q → r?.isSome) ∧ (C32Spec.needsVo q → v?.isSome) := Iff.rfl
    rw [e, C32aux.requested_iff, C32aux.ro_iff q hq, C32aux.vo_iff q hq]
    generalize (kw.use_physical.getD true && !kw.log.getD false) = u
    generalize q.voNecessary = b1
    generalize q.roNecessary = b2
    generalize r? = o1
    generalize v? = o2
    cases u <;> cases b1 <;> cases b2 <;> cases o1 <;> cases o2 <;> simp
  unfold physical_conversion at hres
  rw [C32aux.output_eq ro vo roSet voSet kw q hq.1] at hres
  simp only [bind, Except.bind] at hres
  constructor
  · intro hc
    rw [if_pos (hconv.1 hc)] at hres
    obtain ⟨r, hr⟩ : ∃ r, C32Spec.needsRo q → r? = some r := by
      by_cases h : C32Spec.needsRo q
      · obtain ⟨r, hr⟩ := Option.isSome_iff_exists.1 (hc.2.1 h)
        exact ⟨r, fun _ => hr⟩
      · exact ⟨0, fun h' => absurd h' h⟩
    obtain ⟨v, hv⟩ : ∃ v, C32Spec.needsVo q → v? = some v := by
      by_cases h : C32Spec.needsVo q
      · obtain ⟨v, hv⟩ := Option.isSome_iff_exists.1 (hc.2.2 h)
        exact ⟨v, fun _ => hv⟩
      · exact ⟨0, fun h' => absurd h' h⟩
    obtain ⟨fac, hf⟩ := C32aux.factor_ok k q r v (kw.quantity.getD apy) (kw.kmskpc.getD false)
    have hf' := (C32aux.factor_eq k q r? v? r v hr hv (kw.quantity.getD apy) (kw.kmskpc.getD false)).trans hf
    refine ⟨fac, ?_, ?_⟩
    · rw [hres]
      have e : Kind.factor k q (C32Spec.known kw.vo vo voSet) (C32Spec.known kw.ro ro roSet) (kw.quantity.getD apy)
          (kw.kmskpc.getD false) = .ok fac := hf'
      rw [e]
      dsimp only
      split <;> rfl
    · intro r' v' hr' hv' hr0 hv0 hfr
      have e := (C32aux.factor_eq k q r? v? r' v' hr' hv' (kw.quantity.getD apy) (kw.kmskpc.getD false))
      rw [C32aux.factor_flag k q r' v' _ _ hfr] at e
      obtain ⟨fac', h1, h2⟩ := C31_output k hk q hq.1 r' v' hr0 hv0 (kw.quantity.getD apy)
      rw [h1, hf'] at e
      rw [Except.ok.inj e]
      exact h2
  · intro hc
    rw [if_neg (fun h => hc (hconv.2 h))] at hres
    exact hres

/-- **C32 (quantities with fixed units).** Right ascensions, distances in kpc and the like are never rescaled, whatever the
keywords and the state of the object. -/
theorem C32_fixed (k : Consts) (apy : Bool) (q : Kind) (hq : q.always = true) (ro vo : ℝ) (roSet voSet : Bool) (kw : Kwargs)
    (x : ℝ) : physical_conversion k apy q (C32Spec.obj ro vo roSet voSet) kw (some x)
      = .ok (if kw.quantity.getD apy then .quantity x (q.unit k) else .physical x) := by
  obtain ⟨u, l, r, v, quant, kk⟩ := kw
  cases q <;> simp [Kind.always] at hq <;> cases r <;> cases v <;> rcases quant with _ | _ | _ <;> cases apy <;>
    simp [physical_conversion, Conversion.physical_output, C32Spec.obj, Kind.always, bind, Except.bind, Kind.factor,
      Kind.roNecessary, Kind.voNecessary]

/-- **C32 (nothing to convert).** A method that returns nothing returns nothing, for the regular quantities. -/
theorem C32_none (k : Consts) (apy : Bool) (q : Kind) (hq : C32Spec.regular q) (ro vo : ℝ) (roSet voSet : Bool)
    (kw : Kwargs) : physical_conversion k apy q (C32Spec.obj ro vo roSet voSet) kw none = .ok .none := by
  unfold physical_conversion
  rw [C32aux.output_eq ro vo roSet voSet kw q hq.1]
  simp only [bind, Except.bind]
  split
  · rename_i h
    simp only [Bool.and_eq_true, Bool.not_eq_true', Bool.and_eq_false_iff] at h
    have hr : ∃ r, C32Spec.needsRo q → C32Spec.known kw.ro ro roSet = some r := by
      rw [C32aux.ro_iff q hq]
      rcases e : C32Spec.known kw.ro ro roSet with _ | r
      · exact ⟨0, fun h' => by simp [e, h'] at h⟩
      · exact ⟨r, fun _ => rfl⟩
    have hv : ∃ v, C32Spec.needsVo q → C32Spec.known kw.vo vo voSet = some v := by
      rw [C32aux.vo_iff q hq]
      rcases e : C32Spec.known kw.vo vo voSet with _ | v
      · exact ⟨0, fun h' => by simp [e, h'] at h⟩
      · exact ⟨v, fun _ => rfl⟩
    obtain ⟨r, hr⟩ := hr
    obtain ⟨v, hv⟩ := hv
    obtain ⟨fac, hf⟩ := C32aux.factor_ok k q r v (kw.quantity.getD apy) (kw.kmskpc.getD false)
    rw [C32aux.factor_eq k q _ _ r v hr hv, hf]
  · rfl

/-- **C32 (a scale that is needed but not asked for).** The mass per energy depends on the length scale, but the table says it
does not: with the velocity scale set and the length scale not, the method raises a `TypeError` rather than
returning the number in internal units. -/
theorem C32_mass_energy_fails (k : Consts) (apy : Bool) (ro vo x : ℝ) : C32Spec.needsRo .massenergydensity
    ∧ physical_conversion k apy .massenergydensity (C32Spec.obj ro vo false true) {} (some x) = .error .typeError := by
  constructor
  · simp [C32Spec.needsRo, C31Spec.dimension]
  · simp [physical_conversion, Conversion.physical_output, C32Spec.obj, Kind.always, bind, Except.bind, Kind.factor,
      Kind.roNecessary, Kind.voNecessary]

/-- **C32 (a scale that is asked for but not needed).** Angles depend on neither scale, and number densities only on the length
scale; nevertheless an angle is returned without unit when the length scale is not set, and a number density in
internal units when only the length scale is set. -/
theorem C32_needless_fails (k : Consts) (ro vo x : ℝ) :
    ¬ C32Spec.needsRo .angle ∧ ¬ C32Spec.needsVo .numberdensity ∧ ¬ C32Spec.needsVo .numbersurfacedensity
      ∧ physical_conversion k true .angle (C32Spec.obj ro vo false true) {} (some x) = .ok (.internal x false)
      ∧ physical_conversion k true .numberdensity (C32Spec.obj ro vo true false) {} (some x) = .ok (.internal x false)
      ∧ physical_conversion k true .numbersurfacedensity (C32Spec.obj ro vo true false) {} (some x)
        = .ok (.internal x false) := by
  refine ⟨?_, ?_, ?_, ?_, ?_, ?_⟩ <;>
    simp [C32Spec.needsRo, C32Spec.needsVo, C31Spec.dimension, physical_conversion, Conversion.physical_output, C32Spec.obj,
      Kind.always, bind, Except.bind, Kind.roNecessary, Kind.voNecessary]

/-- **C32 (a misleading warning).** When the logarithm is asked for together with `use_physical=True`, the warning that the
scales are not set is printed although they are. -/
theorem C32_log_warning_fails (k : Consts) (apy : Bool) (ro vo x : ℝ) :
    physical_conversion k apy .phasespacedensity (C32Spec.obj ro vo true true)
      { use_physical := some true, log := some true } (some x) = .ok (.internal x true) := by
  simp [physical_conversion, Conversion.physical_output, C32Spec.obj, Kind.always, bind, Except.bind, Kind.roNecessary,
    Kind.voNecessary]

/-- With `ro` set in the object and `vo` given as a keyword, a circular velocity of 1 is 230 km/s, and with
`use_physical=False` it stays 1. -/
example : physical_conversion fallback false .velocity (C32Spec.obj 8 220 true false) { vo := some 230 } (some 1)
    = .ok (.physical 230)
    ∧ physical_conversion fallback false .velocity (C32Spec.obj 8 220 true true) { use_physical := some false } (some 1)
    = .ok (.internal 1 false) := by
  constructor <;> simp [physical_conversion, Conversion.physical_output, C32Spec.obj, Kind.always, bind, Except.bind,
    Kind.roNecessary, Kind.voNecessary, Kind.factor]

example : C32Spec.regular .force ∧ C32Spec.regular .massphasespacedensity := by
  simp [C32Spec.regular, Kind.always]

end Verif
