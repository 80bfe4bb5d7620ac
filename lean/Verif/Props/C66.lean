import Verif.Lemmas.Coords
import Verif.Props.C25
import Verif.Props.C26
import Mathlib.Analysis.Real.Pi.Irrational

set_option autoImplicit false

/-!
# C66: the degree flag of the coordinate functions

With `degree=True` the angles among the arguments and results are in degrees, and nothing else changes.
-/

noncomputable section
namespace Verif
open Real Coords C25aux

/-- `x` and `y` are the same list but for the entries at the positions `idx`, which are `c` times larger in `y`. -/
def C66aux.Scaled (idx : List ℕ) (c : ℝ) (x y : List ℝ) : Prop :=
  y.length = x.length ∧ ∀ i (h : i < x.length) (h' : i < y.length), y[i] = if i ∈ idx then c * x[i] else x[i]

/-- For every decorated function, when the angles are given by position: the result with degrees is the result in
radians for the angles in radians, with its angles in degrees. -/
theorem C66_degree (ins outs : List ℕ) (f : List ℝ → List ℝ) (args kw : List ℝ) (h : ∀ i ∈ ins, i < args.length) :
    ∃ x, C66aux.Scaled ins (π / 180) (args ++ kw) x ∧
      C66aux.Scaled outs (180 / π) (f x) (degreeDecorator ins outs f true args kw) := by
  refine ⟨(args.mapIdx fun i a => if i ∈ ins then a * π / 180 else a) ++ kw, ⟨by simp, ?_⟩, ⟨?_, ?_⟩⟩
  · intro i hi hi'
    by_cases hl : i < args.length
    · rw [List.getElem_append_left (by simpa using hl), List.getElem_append_left hl, List.getElem_mapIdx]
      split_ifs <;> ring
    · have hn : i ∉ ins := fun hm => hl (h i hm)
      rw [if_neg hn, List.getElem_append_right (by simpa using hl), List.getElem_append_right (not_lt.1 hl)]
      simp
  · simp [degreeDecorator]
  · intro i hi hi'
    simp only [degreeDecorator, if_true, List.getElem_mapIdx]
    split_ifs <;> ring

/-- Without the flag, or with the flag off, angles are in radians throughout. -/
theorem C66_radians (ins outs : List ℕ) (f : List ℝ → List ℝ) (args kw : List ℝ) :
    degreeDecorator ins outs f false args kw = f (args ++ kw) := by
  simp [degreeDecorator]

theorem C66aux.deg (x : ℝ) : x * (180 / π) * π / 180 = x := by
  have := Real.pi_pos.ne'
  field_simp

theorem C66aux.rad (x : ℝ) : x * π / 180 * (180 / π) = x := by
  have := Real.pi_pos.ne'
  field_simp

/-- Equatorial to Galactic and back, all in degrees. -/
theorem C66_sky_round_trip (e : Epoch) (ra dec : ℝ) (h : OffPole e (ra * π / 180) (dec * π / 180)) (h1 : 0 ≤ ra)
    (h2 : ra < 360) (h3 : -90 < dec) (h4 : dec < 90) :
    degreeDecorator [0, 1] [0, 1] (lb_to_radec_list e) true
      (degreeDecorator [0, 1] [0, 1] (radec_to_lb_list e) true [ra, dec] []) [] = [ra, dec] := by
  have hp := Real.pi_pos
  have := C25_round_trip e (ra * π / 180) (dec * π / 180) h (by positivity) (by nlinarith) (by nlinarith) (by nlinarith)
  simp [degreeDecorator, radec_to_lb_list, lb_to_radec_list, C66aux.deg, this, C66aux.rad]

/-- Galactic to equatorial and back, all in degrees. -/
theorem C66_sky_round_trip_galactic (e : Epoch) (l b : ℝ) (h1 : 0 ≤ l) (h2 : l < 360) (h3 : -90 < b) (h4 : b < 90) :
    degreeDecorator [0, 1] [0, 1] (radec_to_lb_list e) true
      (degreeDecorator [0, 1] [0, 1] (lb_to_radec_list e) true [l, b] []) [] = [l, b] := by
  have hp := Real.pi_pos
  have := C25_round_trip_galactic e (l * π / 180) (b * π / 180) (by positivity) (by nlinarith) (by nlinarith) (by nlinarith)
  simp [degreeDecorator, radec_to_lb_list, lb_to_radec_list, C66aux.deg, this, C66aux.rad]

/-- Spherical to rectangular and back, in degrees. -/
theorem C66_lbd_round_trip (l b d : ℝ) (hd : 0 < d) (h1 : 0 ≤ l) (h2 : l < 360) (h3 : -90 < b) (h4 : b < 90) :
    degreeDecorator [] [0, 1] XYZ_to_lbd_list true
      (degreeDecorator [0, 1] [] lbd_to_XYZ_list true [l, b, d] []) [] = [l, b, d] := by
  have hp := Real.pi_pos
  have := C26_round_trip_sky (l * π / 180) (b * π / 180) d hd (by positivity) (by nlinarith) (by nlinarith) (by nlinarith)
  simp [degreeDecorator, lbd_to_XYZ_list, XYZ_to_lbd_list, this, C66aux.rad]

/-- `sin 180` and `sin 90` with the numbers taken as radians. -/
theorem C66aux.sin180 : sin 180 ≠ 0 := by
  intro h
  obtain ⟨n, hn⟩ := Real.sin_eq_zero_iff.1 h
  rcases eq_or_ne n 0 with h0 | h0
  · subst h0; norm_num at hn
  · have : π = ((180 / n : ℚ) : ℝ) := by
      push_cast
      field_simp
      linarith
    exact irrational_pi ⟨_, this.symm⟩

/-- Angles given by keyword are not converted: with the longitude by position and the latitude (180 degrees) and
distance by keyword, the height is not `sin 180° = 0`. -/
theorem C66_keyword_fails : ∃ (f : List ℝ → List ℝ) (args kw : List ℝ),
    degreeDecorator [0, 1] [] f true args kw ≠ degreeDecorator [0, 1] [] f true (args ++ kw) [] := by
  refine ⟨lbd_to_XYZ_list, [0], [180, 1], ?_⟩
  intro h
  simp [degreeDecorator, lbd_to_XYZ_list, lbd_to_XYZ] at h
  exact C66aux.sin180 h.2

/-- The flag given by position is ignored. -/
theorem C66_position_fails : ∃ (f : List ℝ → List ℝ) (args : List ℝ),
    degreeDecorator [0, 1] [] f (degreeFlag (some true) none) args [] ≠
      degreeDecorator [0, 1] [] f (degreeFlag none (some true)) args [] := by
  refine ⟨lbd_to_XYZ_list, [180, 0, 1], ?_⟩
  intro h
  simp [degreeDecorator, degreeFlag, lbd_to_XYZ_list, lbd_to_XYZ] at h
  exact C66aux.sin180 h.2

/-! ### Instances -/

example : degreeDecorator [0, 1] [0, 1] (lb_to_radec_list ⟨0, π / 4, π / 2⟩) true
    (degreeDecorator [0, 1] [0, 1] (radec_to_lb_list ⟨0, π / 4, π / 2⟩) true [0, 0] []) [] = [0, 0] :=
  C66_sky_round_trip ⟨0, π / 4, π / 2⟩ 0 0 (by simpa using C25aux.offPole_equator ⟨0, π / 4, π / 2⟩) (by norm_num)
    (by norm_num) (by norm_num) (by norm_num)

example : degreeDecorator [0, 1] [0, 1] (radec_to_lb_list epoch2000) true
    (degreeDecorator [0, 1] [0, 1] (lb_to_radec_list epoch2000) true [120, -30] []) [] = [120, -30] :=
  C66_sky_round_trip_galactic epoch2000 120 (-30) (by norm_num) (by norm_num) (by norm_num) (by norm_num)

example : degreeDecorator [] [0, 1] XYZ_to_lbd_list true
    (degreeDecorator [0, 1] [] lbd_to_XYZ_list true [200, 45, 8] []) [] = [200, 45, 8] :=
  C66_lbd_round_trip 200 45 8 (by norm_num) (by norm_num) (by norm_num) (by norm_num) (by norm_num)

/-- Angles by position, distance by keyword. -/
example : ∃ x, C66aux.Scaled [0, 1] (π / 180) [90, 30, 8] x ∧
    C66aux.Scaled [] (180 / π) (lbd_to_XYZ_list x) (degreeDecorator [0, 1] [] lbd_to_XYZ_list true [90, 30] [8]) :=
  C66_degree [0, 1] [] lbd_to_XYZ_list [90, 30] [8] (by simp)

end Verif
