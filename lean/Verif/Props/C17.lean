import Verif.Lemmas.Wrappers
import Verif.Lemmas.Smooth
import Verif.Lemmas.Ellipse
import Verif.Lemmas.Pot.Sum

set_option autoImplicit false

/-!
# C17: rotating wrappers
-/

open Filter Topology

namespace Verif
open Wrap

/-- The wrapped potential turned by `omega t + pa`: a point that moves with the pattern always sees
the value that the wrapped potential has at the fixed azimuth. -/
theorem C17_pattern (P : Pot) (omega pa R z φ t : ℝ) :
    (solidBody omega pa P).val R z (φ + omega * t + pa) t = P.val R z φ t ∧
    (solidBody omega pa P).Rforce R z (φ + omega * t + pa) t = P.Rforce R z φ t ∧
    (solidBody omega pa P).zforce R z (φ + omega * t + pa) t = P.zforce R z φ t ∧
    (solidBody omega pa P).phitorque R z (φ + omega * t + pa) t = P.phitorque R z φ t ∧
    (solidBody omega pa P).dens R z (φ + omega * t + pa) t = P.dens R z φ t := by
  have : φ + omega * t + pa - omega * t - pa = φ := by ring
  simp [solidBody, this]

/-- Forces, second derivatives and density of the rotating wrapper are consistent wherever those of
the wrapped potential are. -/
theorem C17_solidBody {P : Pot} {R z φ t : ℝ} (amp omega pa : ℝ)
    (hg : GradAt P R z (φ - omega * t - pa) t) (hh : HessAt P R z (φ - omega * t - pa) t)
    (hp : PoissonAt P R z (φ - omega * t - pa) t) :
    GradAt ((solidBody omega pa P).scale amp) R z φ t ∧
    HessAt ((solidBody omega pa P).scale amp) R z φ t ∧
    PoissonAt ((solidBody omega pa P).scale amp) R z φ t :=
  ⟨(hg.solidBody omega pa).scale amp, (hh.solidBody omega pa).scale amp,
    (hp.solidBody omega pa).scale amp⟩

/-- Forces and second derivatives of the wrapper with rotation speed depending on radius are
consistent: the methods include the terms from the dependence of the turning angle on radius. -/
theorem C17_corotating {P : Pot} {D : Set (ℝ × ℝ × ℝ)} (hP : SmoothOn P D)
    {R z φ t : ℝ} (amp vpo beta t₀ pa : ℝ) (hR : 0 < R)
    (hD : (R, z, φ - vpo * R ^ (beta - 1) * (t - t₀) - pa) ∈ D) :
    GradAt ((corotating vpo beta t₀ pa P).scale amp) R z φ t ∧
    HessAt ((corotating vpo beta t₀ pa P).scale amp) R z φ t :=
  ⟨(GradAt.corotating hR (hP.grad _ _ _ _ hD) (hP.diff _ _ _ _ hD)).scale amp,
    (HessAt.corotating hP hR hD).scale amp⟩

/-- With `beta = 1` this wrapper is the rotating one. -/
theorem C17_corotating_rigid (P : Pot) (vpo t₀ pa : ℝ) :
    corotating vpo 1 t₀ pa P = solidBody vpo (pa - vpo * t₀) P := by
  have e : ∀ φ t : ℝ, φ - vpo * (t - t₀) - pa = φ - vpo * t - (pa - vpo * t₀) := fun _ _ => by ring
  simp [corotating, solidBody, corotPhi, e]

/-- Value and time dependence of a pattern rotating with angular frequency `omega`. -/
def RotatesWith (P : Pot) (omega : ℝ) : Prop :=
  ∀ R z φ s t, P.val R z (φ + omega * s) s = P.val R z (φ + omega * t) t

/-- The rotating wrapper around a static potential rotates. -/
theorem C17_rotates {P : Pot} (hst : ∀ R z φ s t, P.val R z φ s = P.val R z φ t) (amp omega pa : ℝ) :
    RotatesWith ((solidBody omega pa P).scale amp) omega := by
  intro R z φ s t
  have e : ∀ s, φ + omega * s - omega * s - pa = φ - pa := fun s => by ring
  simp only [Pot.scale, solidBody, e, hst R z _ s t]

/-- Sums of patterns rotating together rotate. -/
theorem C17_rotates_sum {l : List Pot} {omega : ℝ} (h : ∀ P ∈ l, RotatesWith P omega) :
    RotatesWith (Pot.sum l) omega := by
  induction l with
  | nil => exact fun _ _ _ _ _ => rfl
  | cons P l ih =>
    intro R z φ s t
    have h1 := h P (by simp) R z φ s t
    have h2 := ih (fun Q hQ => h Q (by simp [hQ])) R z φ s t
    change P.val _ _ _ _ + (Pot.sum l).val _ _ _ _ = P.val _ _ _ _ + (Pot.sum l).val _ _ _ _
    rw [h1, h2]

/-- A static axisymmetric potential rotates with any frequency. -/
theorem C17_rotates_axisymmetric {P : Pot} (h : ∀ R z φ φ' s t, P.val R z φ s = P.val R z φ' t)
    (omega : ℝ) : RotatesWith P omega := fun _ _ _ _ _ => h _ _ _ _ _ _

theorem C17aux.frame {P : Pot} {omega : ℝ} (h : RotatesWith P omega) (R z φ s u : ℝ) :
    P.val R z φ u = P.val R z (φ - omega * (u - s)) s := by
  have := h R z (φ - omega * u) u s
  rw [show φ - omega * u + omega * u = φ by ring,
    show φ - omega * u + omega * s = φ - omega * (u - s) by ring] at this
  exact this

/-- The Jacobi integral: along every solution of the equations of motion in a potential rotating
with frequency `omega`, energy minus `omega` times the angular momentum is constant. -/
theorem C17_jacobi {P : Pot} {omega : ℝ} (hrot : RotatesWith P omega) {y : ℝ → Fin 6 → ℝ} {I : Set ℝ}
    (hI : Convex ℝ I) (hy : Solves (EOM.full P.force) y I) (hR : ∀ s ∈ I, y s 0 ≠ 0)
    (hg : ∀ s ∈ I, GradAt P (y s 0) (y s 4) (y s 2) s)
    (hd : ∀ s ∈ I, DiffAt P (y s 0) (y s 4) (y s 2) s) :
    ∀ s ∈ I, ∀ u ∈ I,
      (y s 1 ^ 2 + (y s 0 * y s 3) ^ 2 + y s 5 ^ 2) / 2 + P.val (y s 0) (y s 4) (y s 2) s
        - omega * (y s 0 ^ 2 * y s 3) =
      (y u 1 ^ 2 + (y u 0 * y u 3) ^ 2 + y u 5 ^ 2) / 2 + P.val (y u 0) (y u 4) (y u 2) u
        - omega * (y u 0 ^ 2 * y u 3) := by
  apply const_of_hasDerivAt_zero hI
  intro s hs
  have h := hasDerivAt_pi.1 (hy s hs)
  have hlin : HasDerivAt (fun u => omega * (u - s)) omega s := by
    simpa using ((hasDerivAt_id s).sub_const s).const_mul omega
  have hval := GradAt.curve (P := P) (t := s) (a := fun u => y u 0) (b := fun u => y u 4)
    (c := fun u => y u 2 - omega * (u - s)) (by simpa using hg s hs) (by simpa using hd s hs)
    (h 0) (h 4) (hd_sub (h 2) hlin)
  have hkin := ((((h 1).pow 2).add (((h 0).mul (h 3)).pow 2)).add ((h 5).pow 2)).div_const 2
  have hL := (((h 0).pow 2).mul (h 3)).const_mul omega
  have hsum := (hkin.add hval).sub hL
  have heq : (fun u => (y u 1 ^ 2 + (y u 0 * y u 3) ^ 2 + y u 5 ^ 2) / 2
      + P.val (y u 0) (y u 4) (y u 2) u - omega * (y u 0 ^ 2 * y u 3)) =
      fun u => (y u 1 ^ 2 + (y u 0 * y u 3) ^ 2 + y u 5 ^ 2) / 2
        + P.val (y u 0) (y u 4) (y u 2 - omega * (u - s)) s - omega * (y u 0 ^ 2 * y u 3) := by
    funext u
    rw [C17aux.frame hrot _ _ _ s u]
  rw [heq]
  refine hsum.congr_deriv ?_
  have h0 := hR s hs
  simp [EOM.full, Pot.force]
  field_simp
  ring

/-- The same for the planar equations. -/
theorem C17_jacobi_planar {P : Pot} {omega : ℝ} (hrot : RotatesWith P omega) {y : ℝ → Fin 4 → ℝ}
    {I : Set ℝ} (hI : Convex ℝ I) (hy : Solves (EOM.planar P.force) y I) (hR : ∀ s ∈ I, y s 0 ≠ 0)
    (hg : ∀ s ∈ I, PlanarGradAt P (y s 0) (y s 2) s) (hd : ∀ s ∈ I, PlanarDiffAt P (y s 0) (y s 2) s) :
    ∀ s ∈ I, ∀ u ∈ I,
      (y s 1 ^ 2 + (y s 0 * y s 3) ^ 2) / 2 + P.val (y s 0) 0 (y s 2) s
        - omega * (y s 0 ^ 2 * y s 3) =
      (y u 1 ^ 2 + (y u 0 * y u 3) ^ 2) / 2 + P.val (y u 0) 0 (y u 2) u
        - omega * (y u 0 ^ 2 * y u 3) := by
  have key := C17_jacobi (P := P.plane) (omega := omega) (y := fun s => ![y s 0, y s 1, y s 2, y s 3, 0, 0])
    (fun R _ φ s t => hrot R 0 φ s t) hI ?_ hR (fun s hs => (hg s hs).plane 0)
    fun s hs => (hd s hs).plane 0
  · intro s hs u hu
    simpa [Pot.plane] using key s hs u hu
  · intro s hs
    have h := hasDerivAt_pi.1 (hy s hs)
    rw [hasDerivAt_pi]
    intro i
    obtain rfl | rfl | rfl | rfl | rfl | rfl : i = 0 ∨ i = 1 ∨ i = 2 ∨ i = 3 ∨ i = 4 ∨ i = 5 := by
      fin_cases i <;> simp
    · simpa [EOM.full, EOM.planar] using h 0
    · simpa [EOM.full, EOM.planar, Pot.plane, Pot.force] using h 1
    · simpa [EOM.full, EOM.planar] using h 2
    · simpa [EOM.full, EOM.planar, Pot.plane, Pot.force] using h 3
    · simpa [EOM.full] using hasDerivAt_const s (0 : ℝ)
    · simpa [EOM.full, Pot.plane, Pot.force] using hasDerivAt_const s (0 : ℝ)

/-! ### Density of the corotating wrapper -/

/-- Poisson's equation holds for the density of the corotating wrapper exactly when a combination of
derivatives of the wrapped potential vanishes, which it does for `beta = 1`. -/
theorem C03_corotating_partial {P : Pot} {D : Set (ℝ × ℝ × ℝ)} (hP : SmoothOn P D)
    {R z φ t : ℝ} (vpo beta t₀ pa : ℝ) (hR : 0 < R)
    (hD : (R, z, φ - vpo * R ^ (beta - 1) * (t - t₀) - pa) ∈ D)
    (hp : PoissonAt P R z (φ - vpo * R ^ (beta - 1) * (t - t₀) - pa) t) :
    let φ' := φ - vpo * R ^ (beta - 1) * (t - t₀) - pa;
    let s1 := vpo * (beta - 1) * R ^ (beta - 2) * (t - t₀);
    let s2 := vpo * (beta - 1) * (beta - 2) * R ^ (beta - 3) * (t - t₀);
    PoissonAt (corotating vpo beta t₀ pa P) R z φ t ↔
      -2 * P.Rphideriv R z φ' t * s1 + P.phi2deriv R z φ' t * s1 ^ 2
        + P.phitorque R z φ' t * (s2 + s1 / R) = 0 := by
  intro φ' s1 s2
  have g := GradAt.corotating (vpo := vpo) (beta := beta) (t₀ := t₀) (pa := pa) hR
    (hP.grad _ _ _ t hD) (hP.diff _ _ _ t hD)
  have h := HessAt.corotating (t := t) (vpo := vpo) (beta := beta) (t₀ := t₀) (pa := pa) hP hR hD
  rw [poissonAt_iff (hP.grad _ _ _ _ hD) (hP.hess _ _ _ _ hD)] at hp
  rw [poissonAt_iff g h]
  unfold PoissonAlg at *
  simp only [corotating, corotPhi]
  rw [hp]
  simp only [s1, s2, φ']
  constructor <;> intro k
  · linear_combination -k
  · linear_combination -k

/-- The density of the corotating wrapper is not that of its potential: a consistent wrapped
potential, and a point at which Poisson's equation fails for the wrapper. -/
theorem C03_corotating_fails :
    ∃ (P : Pot) (D : Set (ℝ × ℝ × ℝ)) (vpo beta t₀ pa R z φ t : ℝ), SmoothOn P D ∧ 0 < R ∧
      (∀ R z φ t, (R, z, φ) ∈ D → R ≠ 0 → PoissonAt P R z φ t) ∧
      (R, z, corotPhi vpo beta t₀ pa R φ t) ∈ D ∧
      ¬ PoissonAt (corotating vpo beta t₀ pa P) R z φ t := by
  have c := LogarithmicHalo.consistent_nonaxi (q := 1) (core2 := 0) (b := 1 / 2) (by norm_num)
  have hm : (1, 0, (1 : ℝ) - 1 * 1 ^ ((2 : ℝ) - 1) * (1 - 0) - 0) ∈ {p : ℝ × ℝ × ℝ |
      0 < p.1 ^ 2 * (1 - LogarithmicHalo.m1 (1 / 2) * Real.sin p.2.2 ^ 2) + (p.2.1 / 1) ^ 2 + 0
        ∧ p.1 ≠ 0} := by
    simp
  refine ⟨LogarithmicHalo.pot 1 0 (some (1 / 2)), _, 1, 2, 0, 0, 1, 0, 1, 1,
    LogarithmicHalo.smoothOn_nonaxi (by norm_num), one_pos, fun R z φ t h h' => c.poisson _ _ _ _ h h',
    hm, ?_⟩
  refine fun k => absurd ((C03_corotating_partial (LogarithmicHalo.smoothOn_nonaxi (by norm_num))
    1 2 0 0 one_pos hm (c.poisson _ _ _ _ hm one_ne_zero)).1 k) ?_
  norm_num [LogarithmicHalo.pot, LogarithmicHalo.Rphideriv, LogarithmicHalo.phi2deriv,
    LogarithmicHalo.phitorque, LogarithmicHalo.m1, LogarithmicHalo.Rt2]

/-- An orbit staying at the end of a rotating bar: position fixed in the rotating frame. -/
def C17aux.y (s : ℝ) : Fin 6 → ℝ := ![1, 0, s, 1, 0, 0]

/-- The rotating bar: a non-axisymmetric logarithmic potential. -/
noncomputable def C17aux.bar : Pot := solidBody 1 0 (LogarithmicHalo.pot 1 0 (some (1 / 2)))

theorem C17aux.solves : Solves (EOM.full C17aux.bar.force) C17aux.y Set.univ := by
  intro s _
  rw [hasDerivAt_pi]
  intro i
  obtain rfl | rfl | rfl | rfl | rfl | rfl : i = 0 ∨ i = 1 ∨ i = 2 ∨ i = 3 ∨ i = 4 ∨ i = 5 := by
    fin_cases i <;> simp
  · exact (hasDerivAt_const s (1 : ℝ)).congr_deriv (by simp [C17aux.y, EOM.full])
  · refine (hasDerivAt_const s (0 : ℝ)).congr_deriv ?_
    simp [C17aux.y, EOM.full, Pot.force, C17aux.bar, solidBody, LogarithmicHalo.pot,
      LogarithmicHalo.Rforce, LogarithmicHalo.Rt2]
  · exact (hasDerivAt_id s).congr_deriv (by simp [C17aux.y, EOM.full])
  · refine (hasDerivAt_const s (1 : ℝ)).congr_deriv ?_
    simp [C17aux.y, EOM.full, Pot.force, C17aux.bar, solidBody, LogarithmicHalo.pot,
      LogarithmicHalo.phitorque, LogarithmicHalo.Rt2]
  · exact (hasDerivAt_const s (0 : ℝ)).congr_deriv (by simp [C17aux.y, EOM.full])
  · refine (hasDerivAt_const s (0 : ℝ)).congr_deriv ?_
    simp [C17aux.y, EOM.full, Pot.force, C17aux.bar, solidBody, LogarithmicHalo.pot,
      LogarithmicHalo.zforce, LogarithmicHalo.Rt2]

/-- The orbit of the bar is a case of the conservation law. -/
example (s u : ℝ) :
    (C17aux.y s 1 ^ 2 + (C17aux.y s 0 * C17aux.y s 3) ^ 2 + C17aux.y s 5 ^ 2) / 2
      + C17aux.bar.val (C17aux.y s 0) (C17aux.y s 4) (C17aux.y s 2) s - 1 * (C17aux.y s 0 ^ 2 * C17aux.y s 3) =
    (C17aux.y u 1 ^ 2 + (C17aux.y u 0 * C17aux.y u 3) ^ 2 + C17aux.y u 5 ^ 2) / 2
      + C17aux.bar.val (C17aux.y u 0) (C17aux.y u 4) (C17aux.y u 2) u
      - 1 * (C17aux.y u 0 ^ 2 * C17aux.y u 3) := by
  have hS := LogarithmicHalo.smoothOn_nonaxi (q := 1) (core2 := 0) (b := 1 / 2) (by norm_num)
  have hm : ∀ s : ℝ, (1, 0, s - 1 * s - 0) ∈ {p : ℝ × ℝ × ℝ | 0 < p.1 ^ 2 * (1 - LogarithmicHalo.m1 (1 / 2) *
      Real.sin p.2.2 ^ 2) + (p.2.1 / 1) ^ 2 + 0 ∧ p.1 ≠ 0} := fun s => by simp
  have hrot : RotatesWith C17aux.bar 1 := by
    have := C17_rotates (P := LogarithmicHalo.pot 1 0 (some (1 / 2))) (fun _ _ _ _ _ => rfl) 1 1 0
    simpa [RotatesWith, Pot.scale, C17aux.bar] using this
  refine C17_jacobi hrot convex_univ C17aux.solves (fun s _ => by simp [C17aux.y]) (fun s _ => ?_)
    (fun s _ => ?_) s trivial u trivial
  · exact GradAt.solidBody 1 0 (hS.grad 1 0 (s - 1 * s - 0) s (hm s))
  · have h := hS.diff 1 0 (s - 1 * s - 0) s (hm s)
    simp only [DiffAt, C17aux.bar, solidBody] at *
    exact DifferentiableAt.comp (g := fun p : ℝ × ℝ × ℝ =>
        (LogarithmicHalo.pot 1 0 (some (1 / 2))).val p.1 p.2.1 p.2.2 s)
      (f := fun p : ℝ × ℝ × ℝ => (p.1, p.2.1, p.2.2 - 1 * s - 0)) (1, 0, s) h (by fun_prop)

example : GradAt ((corotating 2 (3 / 2) 1 (1 / 3) (LogarithmicHalo.pot 1 1 none)).scale 5) 2 3 1 7 :=
  (C17_corotating (LogarithmicHalo.smoothOn_axi (by norm_num)) 5 2 (3 / 2) 1 (1 / 3) (by norm_num)
    (by norm_num)).1

end Verif
