import Verif.Model.Conversion
import Mathlib.Tactic.FieldSimp
import Mathlib.Tactic.Positivity
import Mathlib.Tactic.NormNum

set_option autoImplicit false

/-!
# C31: unit conversion factors are dimensionally consistent

Specification: an internal number is a multiple of a unit built from `ro` kpc, `vo` km/s and the mass for which Newton's
constant is one.  Every factor and every parser has to be the ratio of that unit and the unit it claims to use.
-/

namespace Verif

open Conversion

/-- Dimension of a physical quantity: powers of length, time, mass and angle. -/
structure C31Spec.LTM where
  L : ℤ
  T : ℤ
  M : ℤ
  A : ℤ

/-- Physical dimensions of the outputs (from their meaning: a potential is an energy per mass, etc.). -/
def C31Spec.dimension : Kind → C31Spec.LTM
  | .time => ⟨0, 1, 0, 0⟩
  | .position => ⟨1, 0, 0, 0⟩
  | .position_kpc => ⟨1, 0, 0, 0⟩
  | .velocity => ⟨1, -1, 0, 0⟩
  | .velocity2 => ⟨2, -2, 0, 0⟩
  | .velocity_kms => ⟨1, -1, 0, 0⟩
  | .energy => ⟨2, -2, 0, 0⟩
  | .density => ⟨-3, 0, 1, 0⟩
  | .numberdensity => ⟨-3, 0, 0, 0⟩
  | .force => ⟨1, -2, 0, 0⟩
  | .velocity2surfacedensity => ⟨0, -2, 1, 0⟩
  | .surfacedensity => ⟨-2, 0, 1, 0⟩
  | .numbersurfacedensity => ⟨-2, 0, 0, 0⟩
  | .surfacedensitydistance => ⟨-1, 0, 1, 0⟩
  | .mass => ⟨0, 0, 1, 0⟩
  | .action => ⟨2, -1, 0, 0⟩
  | .frequency => ⟨0, -1, 0, 0⟩
  | .frequency_kmskpc => ⟨0, -1, 0, 0⟩
  | .forcederivative => ⟨0, -2, 0, 0⟩
  | .angle => ⟨0, 0, 0, 1⟩
  | .angle_deg => ⟨0, 0, 0, 1⟩
  | .propermotion_masyr => ⟨0, -1, 0, 1⟩
  | .phasespacedensity => ⟨-6, 3, 0, 0⟩
  | .phasespacedensity2d => ⟨-4, 2, 0, 0⟩
  | .phasespacedensityvelocity => ⟨-5, 2, 0, 0⟩
  | .phasespacedensityvelocity2 => ⟨-4, 1, 0, 0⟩
  | .massphasespacedensity => ⟨-6, 3, 1, 0⟩
  | .massenergydensity => ⟨-2, 2, 1, 0⟩
  | .dimensionless => ⟨0, 0, 0, 0⟩

/-- Newton's constant in kpc (km/s)^2 / Msun, when it is `G` in pc (km/s)^2 / Msun. -/
noncomputable def C31Spec.newton (k : Consts) : ℝ := k.G / 1000

/-- The internal unit of mass in Msun: the mass with circular velocity `vo` at radius `ro`. -/
noncomputable def C31Spec.massUnit (k : Consts) (ro vo : ℝ) : ℝ := ro * vo ^ 2 / C31Spec.newton k

/-- The internal unit of a quantity of dimension `d`, in kpc, km/s, Msun and rad. -/
noncomputable def C31Spec.internalUnit (k : Consts) (ro vo : ℝ) (d : Dim) : ℝ :=
  ro ^ d.len * vo ^ d.vel * C31Spec.massUnit k ro vo ^ d.mass

/-- **C31 (dimensions of outputs).** The unit attached to an output has the dimension of the quantity. -/
theorem C31_dimensions (k : Consts) (q : Kind) :
    (q.unit k).dim.len = (C31Spec.dimension q).L + (C31Spec.dimension q).T
      ∧ (q.unit k).dim.vel = -(C31Spec.dimension q).T ∧ (q.unit k).dim.mass = (C31Spec.dimension q).M
      ∧ (q.unit k).dim.ang = (C31Spec.dimension q).A := by
  cases q <;> refine ⟨?_, ?_, ?_, ?_⟩ <;> rfl

/-- **C31 (outputs).** Number times unit is the internal number times the internal unit, for every quantity that is not
returned in fixed units anyway. -/
theorem C31_output (k : Consts) (hk : k.Pos) (q : Kind) (hq : q.always = false) (ro vo : ℝ) (hro : 0 < ro)
    (hvo : 0 < vo) (quantity : Bool) : ∃ fac, q.factor k (some vo) (some ro) quantity false = .ok fac
      ∧ fac * (q.unit k).base = C31Spec.internalUnit k ro vo (q.unit k).dim := by
  have hG := hk.G.ne'
  have hK := hk.kms.ne'
  have hr := hro.ne'
  have hv := hvo.ne'
  cases q <;> first
    | (simp [Kind.always] at hq; done)
    | (refine ⟨_, rfl, ?_⟩
       simp only [Kind.unit, C31Spec.internalUnit, C31Spec.massUnit, C31Spec.newton, time_in_Gyr, Gyr, kpc, Conversion.kms,
         kms2, perGyr, kmskpc, kpckms, rad, kmsMyr, msunpc3, perkpc3, msunpc2, msunpc, msun, perGyr2, freq_in_Gyr,
         freq_in_kmskpc, force_in_kmsMyr, dens_in_msolpc3, surfdens_in_msolpc2, mass_in_msol, zpow_neg, zpow_ofNat,
         zpow_zero, zpow_one, Int.reduceNeg, id]
       field_simp
       try norm_num)

/-- **C31 (frequencies in km/s/kpc).** With `kmskpc=True` and without units, frequencies are in km/s/kpc. -/
theorem C31_kmskpc (k : Consts) (ro vo : ℝ) : ∃ fac, Kind.frequency.factor k (some vo) (some ro) false true = .ok fac
      ∧ fac * kmskpc.base = C31Spec.internalUnit k ro vo kmskpc.dim := by
  refine ⟨_, rfl, ?_⟩
  simp [kmskpc, C31Spec.internalUnit, freq_in_kmskpc, zpow_neg]
  ring

/-- **C31 (Newton's constant).** In internal units Newton's constant is one: `G M = v^2 r` for the units of mass, velocity and
length, `8 pi G rho / 3 = H^2` relates the critical density factor to the density factor, and the two ways to write a
force agree. -/
theorem C31_newton (k : Consts) (hk : k.Pos) (ro vo H Om : ℝ) (hro : 0 < ro) (hvo : 0 < vo) (hH : 0 < H)
    (hO : 0 < Om) :
    k.G * mass_in_msol k vo ro = vo ^ 2 * (1000 * ro)
      ∧ dens_in_criticaldens vo ro H * (H * (1 / 10 ^ 6)) ^ 2 = 8 * Real.pi * k.G / 3 * dens_in_msolpc3 k vo ro
      ∧ dens_in_meanmatterdens vo ro H Om * Om = dens_in_criticaldens vo ro H := by
  have hG := hk.G.ne'
  have hr := hro.ne'
  have hv := hvo.ne'
  have hHH := hH.ne'
  refine ⟨?_, ?_, ?_⟩
  · simp only [mass_in_msol, zpow_ofNat]
    field_simp
    norm_num
  · simp only [dens_in_criticaldens, dens_in_msolpc3, zpow_neg, zpow_ofNat, Int.reduceNeg]
    field_simp
  · simp only [dens_in_meanmatterdens]
    field_simp

/-- **C31 (algebra of the factors).** Time and frequency are reciprocal, a force times a length is an energy, a density times a
volume and a surface density times an area are masses, and a force is `2 pi G` times a surface density. -/
theorem C31_algebra (k : Consts) (hk : k.Pos) (ro vo : ℝ) (hro : 0 < ro) (hvo : 0 < vo) :
    time_in_Gyr k vo ro * freq_in_Gyr k vo ro = 1
      ∧ force_in_kmsMyr k vo ro * (ro * (1000 / k.kms)) = vo ^ 2
      ∧ force_in_pcMyr2 k vo ro = force_in_kmsMyr k vo ro * k.kms
      ∧ force_in_10m13kms2 k vo ro * k.myr = force_in_kmsMyr k vo ro
      ∧ dens_in_msolpc3 k vo ro * (1000 * ro) ^ 3 = mass_in_msol k vo ro
      ∧ surfdens_in_msolpc2 k vo ro * (1000 * ro) ^ 2 = mass_in_msol k vo ro
      ∧ mass_in_1010msol k vo ro * 10 ^ 10 = mass_in_msol k vo ro
      ∧ force_in_2piGmsolpc2 k vo ro * (2 * Real.pi) = surfdens_in_msolpc2 k vo ro
      ∧ freq_in_kmskpc vo ro * ro = vo
      ∧ velocity_in_kpcGyr k vo * time_in_Gyr k vo ro = ro
      ∧ dens_in_gevcc k vo ro * k.ev * k.pc ^ 3 = dens_in_msolpc3 k vo ro * k.msol * k.c ^ 2 * 100 := by
  have hG := hk.G.ne'
  have hK := hk.kms.ne'
  have hM := hk.myr.ne'
  have hE := hk.ev.ne'
  have hP := hk.pc.ne'
  have hr := hro.ne'
  have hv := hvo.ne'
  have hpi := Real.pi_ne_zero
  refine ⟨?_, ?_, ?_, ?_, ?_, ?_, ?_, ?_, ?_, ?_, ?_⟩ <;>
    simp only [time_in_Gyr, freq_in_Gyr, force_in_kmsMyr, force_in_pcMyr2, force_in_10m13kms2, dens_in_msolpc3,
      mass_in_msol, surfdens_in_msolpc2, mass_in_1010msol, force_in_2piGmsolpc2, freq_in_kmskpc, velocity_in_kpcGyr,
      dens_in_gevcc, zpow_neg, zpow_ofNat, Int.reduceNeg] <;> field_simp <;> norm_num

/-- A parser accepts a quantity of dimension `d` and turns it into the internal number. -/
def C31Spec.Parses (k : Consts) (ro vo : ℝ) (parser : Input → Except Err ℝ) (d : Dim) : Prop :=
  ∀ x : Qty, x.dim = d → parser (.quantity x) = .ok (x.base / C31Spec.internalUnit k ro vo d)

/-- **C31 (inputs with units).** Every parser turns a quantity of its kind into the internal number. -/
theorem C31_parsers (k : Consts) (hk : k.Pos) (ro vo : ℝ) (hro : 0 < ro) (hvo : 0 < vo) :
    C31Spec.Parses k ro vo (parse_length ro) ⟨1, 0, 0, 0⟩
      ∧ C31Spec.Parses k ro vo (parse_velocity vo) ⟨0, 1, 0, 0⟩
      ∧ C31Spec.Parses k ro vo parse_angle ⟨0, 0, 0, 1⟩
      ∧ C31Spec.Parses k ro vo (parse_time k ro vo) ⟨1, -1, 0, 0⟩
      ∧ C31Spec.Parses k ro vo (parse_mass k ro vo) ⟨0, 0, 1, 0⟩
      ∧ C31Spec.Parses k ro vo (parse_energy vo) ⟨0, 2, 0, 0⟩
      ∧ C31Spec.Parses k ro vo (parse_angmom ro vo) ⟨1, 1, 0, 0⟩
      ∧ C31Spec.Parses k ro vo (parse_frequency ro vo) ⟨-1, 1, 0, 0⟩
      ∧ C31Spec.Parses k ro vo (parse_force k ro vo) ⟨-1, 2, 0, 0⟩
      ∧ C31Spec.Parses k ro vo (parse_dens k ro vo) ⟨-3, 0, 1, 0⟩
      ∧ C31Spec.Parses k ro vo (parse_surfdens k ro vo) ⟨-2, 0, 1, 0⟩
      ∧ C31Spec.Parses k ro vo (parse_numdens ro) ⟨-3, 0, 0, 0⟩ := by
  have hG := hk.G.ne'
  have hK := hk.kms.ne'
  have hr := hro.ne'
  have hv := hvo.ne'
  refine ⟨?_, ?_, ?_, ?_, ?_, ?_, ?_, ?_, ?_, ?_, ?_, ?_⟩ <;> rintro ⟨x, d⟩ rfl <;>
    simp [parse_length, parse_velocity, parse_angle, parse_time, parse_mass, parse_energy, parse_angmom, parse_frequency,
      parse_force, parse_dens, parse_surfdens, parse_numdens, parse, Qty.to, orElse, Except.map, kpc, Conversion.kms, rad, Gyr,
      pckms2, joule, msun1010, kms2, kpckms, kmskpc, pcMyr2, msunpc2, msunpc3, kms2pc2, kms2pc, perkpc3,
      C31Spec.internalUnit, C31Spec.massUnit, C31Spec.newton, time_in_Gyr, mass_in_1010msol, freq_in_kmskpc, force_in_pcMyr2,
      dens_in_msolpc3, surfdens_in_msolpc2, zpow_neg, zpow_ofNat] <;> field_simp <;> norm_num

/-- **C31 (inputs multiplied by Newton's constant or the speed of light).** Masses, densities and surface densities may be
given multiplied by `G`, masses as the energy `M c^2`, and forces as the surface density `F / (2 pi G)`. -/
theorem C31_parsers_alternative (k : Consts) (hk : k.Pos) (ro vo : ℝ) (hro : 0 < ro) (hvo : 0 < vo) (x : ℝ) :
    parse_mass k ro vo (.quantity ⟨C31Spec.newton k * x, 1, 2, 0, 0⟩) = parse_mass k ro vo (.quantity ⟨x, 0, 0, 1, 0⟩)
      ∧ parse_mass k ro vo (.quantity ⟨x * (k.c * 10 ^ 5) ^ 2, 0, 2, 1, 0⟩)
        = parse_mass k ro vo (.quantity ⟨x, 0, 0, 1, 0⟩)
      ∧ parse_dens k ro vo (.quantity ⟨C31Spec.newton k * x, -2, 2, 0, 0⟩)
        = parse_dens k ro vo (.quantity ⟨x, -3, 0, 1, 0⟩)
      ∧ parse_surfdens k ro vo (.quantity ⟨C31Spec.newton k * x, -1, 2, 0, 0⟩)
        = parse_surfdens k ro vo (.quantity ⟨x, -2, 0, 1, 0⟩)
      ∧ parse_force k ro vo (.quantity ⟨x, -2, 0, 1, 0⟩)
        = parse_force k ro vo (.quantity ⟨2 * Real.pi * C31Spec.newton k * x, -1, 2, 0, 0⟩) := by
  have hG := hk.G.ne'
  have hK := hk.kms.ne'
  have hJ := hk.joule.ne'
  have hC := hk.c.ne'
  have hr := hro.ne'
  have hv := hvo.ne'
  have hpi := Real.pi_ne_zero
  refine ⟨?_, ?_, ?_, ?_, ?_⟩ <;>
    simp [parse_mass, parse_force, parse_dens, parse_surfdens, parse, Qty.to, orElse, Except.map,
      pckms2, joule, msun1010, pcMyr2, msunpc2, msunpc3, kms2pc2, kms2pc, C31Spec.newton, mass_in_1010msol, mass_in_msol,
      force_in_pcMyr2, force_in_2piGmsolpc2, dens_in_msolpc3, surfdens_in_msolpc2, zpow_neg, zpow_ofNat] <;>
    field_simp <;> norm_num

/-- **C31 (numbers are internal already).** A plain number is taken as it is. -/
theorem C31_numbers (k : Consts) (ro vo x : ℝ) :
    parse_length ro (.number x) = .ok x ∧ parse_velocity vo (.number x) = .ok x ∧ parse_angle (.number x) = .ok x
      ∧ parse_time k ro vo (.number x) = .ok x ∧ parse_mass k ro vo (.number x) = .ok x
      ∧ parse_energy vo (.number x) = .ok x ∧ parse_angmom ro vo (.number x) = .ok x
      ∧ parse_frequency ro vo (.number x) = .ok x ∧ parse_force k ro vo (.number x) = .ok x
      ∧ parse_dens k ro vo (.number x) = .ok x ∧ parse_surfdens k ro vo (.number x) = .ok x
      ∧ parse_numdens ro (.number x) = .ok x := by
  refine ⟨?_, ?_, ?_, ?_, ?_, ?_, ?_, ?_, ?_, ?_, ?_, ?_⟩ <;> rfl

/-- **C31 (round trip).** Parsing an output gives back the internal number. -/
theorem C31_round_trip (k : Consts) (hk : k.Pos) (ro vo : ℝ) (hro : 0 < ro) (hvo : 0 < vo) (q : Kind)
    (hq : q.always = false) (parser : Input → Except Err ℝ)
    (hp : C31Spec.Parses k ro vo parser (q.unit k).dim) (x fac : ℝ)
    (hf : q.factor k (some vo) (some ro) true false = .ok fac) :
    parser (.quantity ⟨x * fac * (q.unit k).base, (q.unit k).dim⟩) = .ok x := by
  obtain ⟨fac', h1, h2⟩ := C31_output k hk q hq ro vo hro hvo true
  obtain rfl : fac = fac' := by
    rw [h1] at hf
    exact (Except.ok.inj hf).symm
  rw [hp ⟨x * fac * (q.unit k).base, (q.unit k).dim⟩ rfl]
  dsimp only
  rw [mul_assoc, h2, mul_div_assoc, div_self, mul_one]
  have h : 0 < C31Spec.massUnit k ro vo := by
    have := hk.G
    unfold C31Spec.massUnit C31Spec.newton
    positivity
  unfold C31Spec.internalUnit
  positivity

/-- **C31 (wrong units are refused).** A quantity of a dimension that a parser does not know is an error, never a number. -/
theorem C31_refused (k : Consts) (ro vo : ℝ) (x : Qty) :
    (x.dim ≠ ⟨1, 0, 0, 0⟩ → parse_length ro (.quantity x) = .error .unitConversion)
      ∧ (x.dim ≠ ⟨0, 1, 0, 0⟩ → parse_velocity vo (.quantity x) = .error .unitConversion)
      ∧ (x.dim ≠ ⟨0, 0, 0, 1⟩ → parse_angle (.quantity x) = .error .unitConversion)
      ∧ (x.dim ≠ ⟨1, -1, 0, 0⟩ → parse_time k ro vo (.quantity x) = .error .unitConversion)
      ∧ (x.dim ≠ ⟨0, 0, 1, 0⟩ → x.dim ≠ ⟨1, 2, 0, 0⟩ → x.dim ≠ ⟨0, 2, 1, 0⟩
        → parse_mass k ro vo (.quantity x) = .error .unitConversion)
      ∧ (x.dim ≠ ⟨-1, 2, 0, 0⟩ → x.dim ≠ ⟨-2, 0, 1, 0⟩ → parse_force k ro vo (.quantity x) = .error .unitConversion)
      ∧ (x.dim ≠ ⟨-3, 0, 1, 0⟩ → x.dim ≠ ⟨-2, 2, 0, 0⟩ → parse_dens k ro vo (.quantity x) = .error .unitConversion)
      ∧ (x.dim ≠ ⟨-2, 0, 1, 0⟩ → x.dim ≠ ⟨-1, 2, 0, 0⟩
        → parse_surfdens k ro vo (.quantity x) = .error .unitConversion) := by
  refine ⟨?_, ?_, ?_, ?_, ?_, ?_, ?_, ?_⟩ <;> intros <;>
    simp_all [parse_length, parse_velocity, parse_angle, parse_time, parse_mass, parse_force, parse_dens, parse_surfdens,
      parse, Qty.to, orElse, Except.map, kpc, Conversion.kms, rad, Gyr, pckms2, joule, msun1010, pcMyr2, msunpc2, msunpc3,
      kms2pc2, kms2pc]

/-- **C31 (a mega-year has two lengths).** Without astropy, the factor for accelerations in `10^-13 km/s^2` uses the tropical
year while the conversion of km/s to pc/Myr uses the Julian one: the acceleration `vo^2 / ro` (with a kpc of `pc 10^16` km) is
off by more than 2 parts in 100000, for every choice of scales. -/
theorem C31_year_fails (ro vo : ℝ) (hro : 0 < ro) (hvo : 0 < vo) : fallback.Pos
    ∧ force_in_10m13kms2 fallback vo ro > (1 + 2 / 10 ^ 5) * (vo ^ 2 / (ro * (fallback.pc * 10 ^ 16)) * 10 ^ 13)
    ∧ force_in_10m13kms2 fallback vo ro < (1 + 3 / 10 ^ 5) * (vo ^ 2 / (ro * (fallback.pc * 10 ^ 16)) * 10 ^ 13) := by
  have h : 0 < vo ^ 2 / ro := by positivity
  refine ⟨⟨?_, ?_, ?_, ?_, ?_, ?_, ?_, ?_⟩, ?_, ?_⟩
  iterate 8 (simp only [fallback]; norm_num)
  · have e : vo ^ 2 / (ro * (fallback.pc * 10 ^ 16)) * 10 ^ 13 = vo ^ 2 / ro * (1 / (fallback.pc * 1000)) := by
      simp only [fallback]
      field_simp
      norm_num
    rw [e]
    have e2 : force_in_10m13kms2 fallback vo ro = vo ^ 2 / ro * (fallback.kms / 1000 / fallback.myr) := by
      simp only [force_in_10m13kms2, zpow_neg, zpow_ofNat]
      norm_num
      ring
    rw [e2, gt_iff_lt, mul_left_comm]
    refine mul_lt_mul_of_pos_left ?_ h
    simp only [fallback]
    norm_num
  · have e : vo ^ 2 / (ro * (fallback.pc * 10 ^ 16)) * 10 ^ 13 = vo ^ 2 / ro * (1 / (fallback.pc * 1000)) := by
      simp only [fallback]
      field_simp
      norm_num
    rw [e]
    have e2 : force_in_10m13kms2 fallback vo ro = vo ^ 2 / ro * (fallback.kms / 1000 / fallback.myr) := by
      simp only [force_in_10m13kms2, zpow_neg, zpow_ofNat]
      norm_num
      ring
    rw [e2, mul_left_comm]
    refine mul_lt_mul_of_pos_left ?_ h
    simp only [fallback]
    norm_num

/-- The hypotheses of the round trip are met by the density and its parser, with the constants of the code. -/
example : parse_dens fallback 8 220 (.quantity ⟨3 * dens_in_msolpc3 fallback 220 8 * 1000 ^ 3, -3, 0, 1, 0⟩) = .ok 3 := by
  have hp := (C31_year_fails 8 220 (by norm_num) (by norm_num)).1
  have h := C31_parsers fallback hp 8 220 (by norm_num) (by norm_num)
  exact C31_round_trip fallback hp 8 220 (by norm_num) (by norm_num) .density rfl _ h.2.2.2.2.2.2.2.2.2.1 3 _ rfl

end Verif
