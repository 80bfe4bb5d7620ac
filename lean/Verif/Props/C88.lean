import Verif.Lemmas.Pot.SCFCoef
import Verif.Lemmas.Pot.Ops

set_option autoImplicit false

/-!
# C88: coefficients of SCFPotential from densities and particles

The three functions computing coefficients of a density recover those of an expansion; where the default order of the quadrature
is too low, they do not.  Coefficients of particles and of densities are projections on the same basis functions, the functions
for the symmetries agree, and splitting particles or times in batches changes nothing.
-/

noncomputable section
open Real Finset intervalIntegral

namespace Verif
open SCF

namespace C88Spec

/-- A function returns Gauss-Legendre rules: the nodes are inside of the interval and the rule of order `K` integrates polynomials
of degree below `2 K`. -/
def GaussLegendre (leg : ℕ → Rule) : Prop := ∀ K, (∀ i < K, -1 < (leg K).x i ∧ (leg K).x i < 1) ∧
  ∀ p : Polynomial ℝ, p.natDegree < 2 * K → ∑ i ∈ range K, (leg K).w i * p.eval ((leg K).x i) = ∫ x in (-1 : ℝ)..1, p.eval x

/-- `SCFPotential(Acos=Ac, Asin=As, a=a)` with arrays of shape `N, L, M` and amplitude one. -/
def expansion (a : ℝ) (N L M : ℕ) (Ac As : ℕ → ℕ → ℕ → ℝ) : Pot :=
  (raw ⟨a, N, L, M, false, Ac, As, fun _ _ _ _ => 0, fun _ _ _ _ => 0⟩).scale (1 / 2)

/-- The basis function: the expansion with one non-zero coefficient. -/
def basisCos (a : ℝ) (n l m : ℕ) : Pot :=
  expansion a (n + 1) (l + 1) (m + 1) (fun n' l' m' => if n' = n ∧ l' = l ∧ m' = m then 1 else 0) fun _ _ _ => 0
def basisSin (a : ℝ) (n l m : ℕ) : Pot :=
  expansion a (n + 1) (l + 1) (m + 1) (fun _ _ _ => 0) fun n' l' m' => if n' = n ∧ l' = l ∧ m' = m then 1 else 0

/-- `∑ m Φ` over particles. -/
def overParticles (P : Pot) (ps : List Particle) : ℝ :=
  (ps.map fun q => q.m * P.val (√(q.x ^ 2 + q.y ^ 2)) q.z (Coords.atan2 q.y q.x) 0).sum

/-- `∫ ρ Φ dV` with the nodes of a rule for `ξ`, one for the cosine of the polar angle, and an integral over the azimuth. -/
def overDensity (P : Pot) (a : ℝ) (dens : ℝ → ℝ → ℝ → ℝ) (leg : ℕ → Rule) (K₁ K₂ : ℕ) : ℝ :=
  ∑ i ∈ range K₁, ∑ j ∈ range K₂, (leg K₁).w i * (leg K₂).w j * ∫ φ in (0 : ℝ)..(2 * π),
    let r := fun ξ : ℝ => a * ((1 + ξ) / (1 - ξ));
    let ξ := (leg K₁).x i;
    let x := (leg K₂).x j;
    dens (r ξ * √(1 - x ^ 2)) (r ξ * x) φ * P.val (r ξ * √(1 - x ^ 2)) (r ξ * x) φ 0 * (r ξ ^ 2 * deriv r ξ)

end C88Spec
open C88Spec

namespace C88aux

theorem gauss {leg : ℕ → Rule} (h : GaussLegendre leg) (K : ℕ) : (leg K).Gauss K := ⟨(h K).1, (h K).2⟩

theorem exists_leg : ∃ leg, GaussLegendre leg := by
  obtain ⟨leg, h⟩ := exists_gauss
  exact ⟨leg, fun K => ⟨(h K).inside, (h K).exact⟩⟩

theorem single_cos (a : ℝ) (n l m : ℕ) : (raw (single a n l m 1 0)).scale (1 / 2) = basisCos a n l m := by
  unfold basisCos expansion single
  simp

theorem single_sin (a : ℝ) (n l m : ℕ) : (raw (single a n l m 0 1)).scale (1 / 2) = basisSin a n l m := by
  unfold basisSin expansion single
  simp

theorem deriv_r {a ξ : ℝ} (h : ξ < 1) : deriv (fun ξ : ℝ => a * ((1 + ξ) / (1 - ξ))) ξ = 2 * a / (1 - ξ) ^ 2 := by
  have h0 : 1 - ξ ≠ 0 := by linarith
  have : HasDerivAt (fun ξ : ℝ => a * ((1 + ξ) / (1 - ξ))) (a * ((1 * (1 - ξ) - (1 + ξ) * (-1)) / (1 - ξ) ^ 2)) ξ :=
    ((((hasDerivAt_id ξ).const_add 1).div ((hasDerivAt_id ξ).const_sub 1) h0)).const_mul a
  rw [this.deriv]
  field_simp
  ring

theorem over_eq {P : Pot} {a : ℝ} {dens : ℝ → ℝ → ℝ → ℝ} {leg : ℕ → Rule} (h : GaussLegendre leg) (K₁ K₂ : ℕ) :
    overDensity P a dens leg K₁ K₂ = ∑ i ∈ range K₁, ∑ j ∈ range K₂, (leg K₁).w i * (leg K₂).w j *
        ∫ φ in (0 : ℝ)..(2 * π),
          let ξ := (leg K₁).x i;
          let x := (leg K₂).x j;
          let r := xiToR ξ a;
          dens (r * √(1 - x ^ 2)) (r * x) φ * P.val (r * √(1 - x ^ 2)) (r * x) φ 0 * (r ^ 2 * (2 * a / (1 - ξ) ^ 2)) := by
  unfold overDensity
  refine Finset.sum_congr rfl fun i hi => Finset.sum_congr rfl fun j _ => ?_
  simp only [deriv_r ((h K₁).1 i (Finset.mem_range.1 hi)).2, xiToR]

end C88aux
open C88aux

/-- Spherical densities: `scf_compute_coeffs_spherical` of the density of a spherical expansion returns its coefficients, for
every number of them with the default order. -/
theorem C88_spherical {leg : ℕ → Rule} (h : GaussLegendre leg) {a : ℝ} (ha : 0 < a) (N N' : ℕ) (A : ℕ → ℝ) {n : ℕ} (hn : n < N) (hN : N' ≤ N) :
    coefSpher leg (fun r => (expansion a N' 1 1 (fun n _ _ => A n) fun _ _ _ => 0).dens r 0 0 0) N a none n
      = if n < N' then A n else 0 :=
  spher_eq (p := ⟨a, N', 1, 1, false, fun n _ _ => A n, fun _ _ _ => 0, fun _ _ _ _ => 0, fun _ _ _ _ => 0⟩) ha rfl rfl rfl
    (gauss h _) hn (by simp only [Option.getD]; omega)
example : ∃ leg, GaussLegendre leg ∧
    coefSpher leg (fun r => (expansion 2 30 1 1 (fun n _ _ => n + 1) fun _ _ _ => 0).dens r 0 0 0) 30 2 none 29 = 30 := by
  obtain ⟨leg, h⟩ := exists_leg
  refine ⟨leg, h, ?_⟩
  rw [C88_spherical h two_pos 30 30 (fun n => n + 1) (by norm_num) le_rfl, if_pos (by norm_num)]
  norm_num

/-- Axisymmetric densities, where the orders of the quadrature are high enough.  Missing: lower orders, among them the default
order for `L > 4`. -/
theorem C88_axi_partial {leg : ℕ → Rule} (h : GaussLegendre leg) {a : ℝ} (ha : 0 < a) (N N' L L' : ℕ) (A : ℕ → ℕ → ℝ) (ro co : Option ℕ)
    {n l : ℕ} (hn : n < N) (h₁ : 4 * l + n + N' + 1 < 2 * ro.getD (max (N + 3 * L / 2 + 1) 20))
    (h₂ : l + L' ≤ 2 * co.getD (max (L + 1) 20)) :
    coefAxi leg (fun R z => (expansion a N' L' 1 (fun n l _ => A n l) fun _ _ _ => 0).dens R z 0 0) N L a ro co n l
      = if n < N' ∧ l < L' then A n l else 0 :=
  axi_eq (p := ⟨a, N', L', 1, false, fun n l _ => A n l, fun _ _ _ => 0, fun _ _ _ _ => 0, fun _ _ _ _ => 0⟩) ha rfl rfl
    (gauss h _) (gauss h _) hn h₁ h₂
example : ∃ leg, GaussLegendre leg ∧
    coefAxi leg (fun R z => (expansion 2 5 9 1 (fun n l _ => n + 10 * l) fun _ _ _ => 0).dens R z 0 0) 5 9 2 (some 30) none 4 8 = 84 := by
  obtain ⟨leg, h⟩ := exists_leg
  refine ⟨leg, h, ?_⟩
  rw [C88_axi_partial h two_pos 5 5 9 9 (fun n l => n + 10 * l) _ _ (by norm_num) (by simp) (by simp), if_pos (by norm_num)]
  norm_num

/-- With the default orders this covers up to four multipoles and any number of radial functions. -/
theorem C88_axi_default {leg : ℕ → Rule} (h : GaussLegendre leg) {a : ℝ} (ha : 0 < a) (N L : ℕ) (hL : L ≤ 4) (A : ℕ → ℕ → ℝ)
    {n l : ℕ} (hn : n < N) (hl : l < L) :
    coefAxi leg (fun R z => (expansion a N L 1 (fun n l _ => A n l) fun _ _ _ => 0).dens R z 0 0) N L a none none n l = A n l := by
  rw [C88_axi_partial h ha N N L L A none none hn (by simp only [Option.getD]; omega) (by simp only [Option.getD]; omega),
    if_pos ⟨hn, hl⟩]
example : ∃ leg, GaussLegendre leg ∧
    coefAxi leg (fun R z => (expansion 2 40 4 1 (fun n l _ => n + 100 * l) fun _ _ _ => 0).dens R z 0 0) 40 4 2 none none 39 3 = 339 := by
  obtain ⟨leg, h⟩ := exists_leg
  refine ⟨leg, h, ?_⟩
  rw [C88_axi_default h two_pos 40 4 le_rfl (fun n l => n + 100 * l) (by norm_num) (by norm_num)]
  norm_num

/-- With five multipoles and any number of radial functions from twelve on, the default order is one too low: the coefficient of
the last basis function is not recovered from its own density. -/
theorem C88_axi_fails {leg : ℕ → Rule} (h : GaussLegendre leg) {a : ℝ} (ha : 0 < a) (N : ℕ) (hN : 12 ≤ N) :
    ∃ A : ℕ → ℕ → ℝ, coefAxi leg (fun R z => (expansion a N 5 1 (fun n l _ => A n l) fun _ _ _ => 0).dens R z 0 0) N 5 a none none (N - 1) 4
      ≠ A (N - 1) 4 := by
  set A : ℕ → ℕ → ℝ := fun n l => if n = N - 1 ∧ l = 4 then 1 else 0 with hA
  set p : Par := ⟨a, N, 5, 1, false, fun n l _ => A n l, fun _ _ _ => 0, fun _ _ _ _ => 0, fun _ _ _ _ => 0⟩ with hp
  refine ⟨A, ?_⟩
  have e : ∀ R z φ, ((raw p).scale (1 / 2)).dens R z 0 0 = ((raw p).scale (1 / 2)).dens R z φ 0 := by
    intro R z φ
    simp only [Pot.scale, raw, SCF.dens, atPoint, Par.sum, hp, Finset.sum_range_one, Coords.cyl_to_spher]
    simp
  show coefAxi leg (fun R z => ((raw p).scale (1 / 2)).dens R z 0 0) N 5 p.a none none (N - 1) 4 ≠ _
  have oR : orderR N 5 none = N + 8 := by simp only [orderR, Option.getD]; omega
  rw [axi_full, show (fun R z (_ : ℝ) => ((raw p).scale (1 / 2)).dens R z 0 0) = fun R z φ => ((raw p).scale (1 / 2)).dens R z φ 0 by
    funext R z φ; exact e R z φ]
  rw [full_raw (p := p) ha (gauss h _).inside (gauss h _) cos continuous_cos (fun m c _ => c * (π * if m = 0 then 2 else 1)) (Nat.zero_le 4)
      (fun m' c s => trig_cos 0 m' c s) (by simp [orderC, hp])]
  have hn1 : N - 1 < p.N := by simp only [hp]; omega
  rw [Finset.sum_eq_single (N - 1)]
  rotate_left
  · intro n' _ hn'
    have : (p.coef 0).c n' 4 0 = 0 := by simp [Par.coef, hp, hA, hn']
    rw [this]
    simp
  · intro hc
    exact absurd (Finset.mem_range.2 hn1) hc
  rw [if_pos (show 4 < p.L by norm_num [hp]), if_pos (show 0 < p.M by norm_num [hp])]
  set K := orderR N 5 none with hK
  have ec : (p.coef 0).c (N - 1) 4 0 = A (N - 1) 4 * NN 4 0 := by simp [Par.coef, hp]
  rw [ec]
  have g := gauss h K
  have er : ∑ i ∈ range K, (leg K).w i * (fRho p.a (N - 1) 4 (xiToR ((leg K).x i) p.a)
        * (p.a ^ 3 * (1 + (leg K).x i) ^ 4 * (1 - (leg K).x i) ^ (4 + 1) * CC ((leg K).x i) N (N - 1) 4) * dVol ((leg K).x i))
      = Knl (N - 1) 4 / (8 * √π * 4 ^ 4) * ∑ i ∈ range K, (leg K).w i * (radP (N - 1) (N - 1) 4 4).eval ((leg K).x i) := by
    rw [Finset.mul_sum]
    refine Finset.sum_congr rfl fun i hi => ?_
    obtain ⟨a1, a2⟩ := g.inside i (Finset.mem_range.1 hi)
    rw [rad_eq ha a1 a2 (by omega)]
    ring
  rw [er]
  have ne := g.not_exact (f := radP (N - 1) (N - 1) 4 4) (by rw [natDegree_radP, oR]; omega) (by omega)
  rw [int_radP, if_pos rfl] at ne
  have id := const_id (N - 1) (Nat.zero_le 4) (A (N - 1) 4)
  have A1 : A (N - 1) 4 = 1 := by simp [hA]
  intro hc
  apply ne
  generalize ∑ i ∈ range K, (leg K).w i * (radP (N - 1) (N - 1) 4 4).eval ((leg K).x i) = q at *
  rw [A1] at hc id
  generalize Geg.H (2 * 4 + 1) (N - 1) = H at *
  set U := 2 * (Inl (N - 1) 4)⁻¹ * -(1 / 2 * (1 * NN 4 0 * (π * if 0 = 0 then 2 else 1)) * (Knl (N - 1) 4 / (8 * √π * 4 ^ 4))
    * (2 / (2 * ((4 : ℕ) : ℝ) + 1) * ((4 + 0).factorial / (4 - 0).factorial))) * cFull 4 0 with hU
  have h1 : U * H = 1 := by
    rw [hU]
    linear_combination id
  have h2 : U * q = 1 := by
    rw [hU]
    linear_combination hc
  have U0 : U ≠ 0 := fun k => by rw [k] at h1; simp at h1
  exact mul_left_cancel₀ U0 (h2.trans h1.symm)
example : ∃ leg, GaussLegendre leg ∧ ∃ A : ℕ → ℕ → ℝ,
    coefAxi leg (fun R z => (expansion 1 12 5 1 (fun n l _ => A n l) fun _ _ _ => 0).dens R z 0 0) 12 5 1 none none 11 4 ≠ A 11 4 := by
  obtain ⟨leg, h⟩ := exists_leg
  exact ⟨leg, h, C88_axi_fails h one_pos 12 le_rfl⟩

/-- Densities without symmetry, with the integral over the azimuth exact.  Missing: the quadrature in azimuth, lower orders. -/
theorem C88_full_partial {leg : ℕ → Rule} (h : GaussLegendre leg) {a : ℝ} (ha : 0 < a) (N N' L L' M' : ℕ) (Ac As : ℕ → ℕ → ℕ → ℝ)
    (ro co : Option ℕ) {n l m : ℕ} (hn : n < N) (h₁ : 4 * l + n + N' + 1 < 2 * ro.getD (max (N + 3 * L / 2 + 1) 20))
    (h₂ : l + L' ≤ 2 * co.getD (max (L + 1) 20)) :
    coefFull leg cos (fun R z φ => (expansion a N' L' M' Ac As).dens R z φ 0) N L a ro co n l m
        = (if n < N' ∧ l < L' ∧ m < M' ∧ m ≤ l then Ac n l m else 0)
    ∧ coefFull leg sin (fun R z φ => (expansion a N' L' M' Ac As).dens R z φ 0) N L a ro co n l m
        = (if n < N' ∧ l < L' ∧ m < M' ∧ 1 ≤ m ∧ m ≤ l then As n l m else 0) :=
  ⟨full_cos (p := ⟨a, N', L', M', false, Ac, As, fun _ _ _ _ => 0, fun _ _ _ _ => 0⟩) ha rfl (gauss h _) (gauss h _) hn h₁ h₂ 0,
    full_sin (p := ⟨a, N', L', M', false, Ac, As, fun _ _ _ _ => 0, fun _ _ _ _ => 0⟩) ha rfl (gauss h _) (gauss h _) hn h₁ h₂ 0⟩
example : ∃ leg, GaussLegendre leg ∧ coefFull leg sin
    (fun R z φ => (expansion 2 10 3 3 (fun _ _ _ => 0) fun n l m => n + 10 * l + 100 * m).dens R z φ 0) 10 3 2 none none 4 2 1 = 124 := by
  obtain ⟨leg, h⟩ := exists_leg
  refine ⟨leg, h, ?_⟩
  rw [(C88_full_partial h two_pos 10 10 3 3 3 (fun _ _ _ => 0) (fun n l m => n + 10 * l + 100 * m) none none (by norm_num) (by simp)
    (by simp)).2, if_pos (by norm_num)]
  norm_num

/-- Computing coefficients twice: for an arbitrary density, the expansion with its coefficients has these coefficients. -/
theorem C88_twice {leg : ℕ → Rule} (h : GaussLegendre leg) {a : ℝ} (ha : 0 < a) (dens : ℝ → ℝ → ℝ → ℝ) (N L : ℕ) (ro co : Option ℕ)
    (h₁ : 4 * L + 2 * N ≤ 2 * ro.getD (max (N + 3 * L / 2 + 1) 20) + 3) (h₂ : 2 * L ≤ 2 * co.getD (max (L + 1) 20) + 1)
    {n l m : ℕ} (hn : n < N) (hl : l < L) (hm : m ≤ l) :
    let Ac := coefFull leg cos dens N L a ro co;
    let As := coefFull leg sin dens N L a ro co;
    coefFull leg cos (fun R z φ => (expansion a N L L Ac As).dens R z φ 0) N L a ro co n l m = Ac n l m
      ∧ coefFull leg sin (fun R z φ => (expansion a N L L Ac As).dens R z φ 0) N L a ro co n l m = As n l m := by
  intro Ac As
  obtain ⟨c, s⟩ := C88_full_partial h ha N N L L L Ac As ro co (n := n) (l := l) (m := m) hn (by omega) (by omega)
  refine ⟨by rw [c, if_pos ⟨hn, hl, by omega, hm⟩], ?_⟩
  rw [s]
  by_cases h0 : m = 0
  · rw [if_neg (by omega)]
    simp only [As, coefFull, quad3, quad2, h0]
    simp
  · rw [if_pos ⟨hn, hl, by omega, by omega, hm⟩]
example : ∃ leg, GaussLegendre leg ∧
    let Ac := coefFull leg cos (fun R z φ => exp (-R - z ^ 2) * (2 + cos φ)) 10 4 2 none none;
    let As := coefFull leg sin (fun R z φ => exp (-R - z ^ 2) * (2 + cos φ)) 10 4 2 none none;
    coefFull leg cos (fun R z φ => (expansion 2 10 4 4 Ac As).dens R z φ 0) 10 4 2 none none 3 2 1 = Ac 3 2 1 := by
  obtain ⟨leg, h⟩ := exists_leg
  exact ⟨leg, h, (C88_twice h two_pos _ 10 4 none none (by simp) (by simp) (by norm_num) (by norm_num) (by norm_num)).1⟩

/-- Particles and densities: up to one constant, which depends on neither, both kinds of coefficient are the projection on the
potential of the basis function, `∑ m Φ` over the particles and `∫ ρ Φ dV` with the nodes of the quadrature. -/
theorem C88_projection {a : ℝ} (ha : 0 < a) {N n l m : ℕ} (hn : n < N) (hm : m ≤ l) :
    ∃ E < 0, (∀ ps : List Particle, (∀ q ∈ ps, 0 < q.x ^ 2 + q.y ^ 2 + q.z ^ 2) →
        nbodyFull cos ps N a n l m * E = overParticles (basisCos a n l m) ps
        ∧ nbodyFull sin ps N a n l m * E = overParticles (basisSin a n l m) ps)
      ∧ ∀ leg, GaussLegendre leg → ∀ (dens : ℝ → ℝ → ℝ → ℝ) (L : ℕ) (K₁ K₂ : ℕ),
        coefFull leg cos dens N L a (some K₁) (some K₂) n l m * E = overDensity (basisCos a n l m) a dens leg K₁ K₂
        ∧ coefFull leg sin dens N L a (some K₁) (some K₂) n l m * E = overDensity (basisSin a n l m) a dens leg K₁ K₂ := by
  refine ⟨enl a n l m, enl_neg ha n l m, fun ps hps => ?_, fun leg h dens L K₁ K₂ => ?_⟩
  · have hp : ∀ q ∈ ps, 0 < q.r := fun q hq => sqrt_pos.2 (hps q hq)
    exact ⟨by rw [nbody_gen ha hn hm cos 1 0 (fun x => by ring) ps hp 0, single_cos]; rfl,
      by rw [nbody_gen ha hn hm sin 0 1 (fun x => by ring) ps hp 0, single_sin]; rfl⟩
  · refine ⟨?_, ?_⟩
    · rw [dens_gen ha hn hm cos 1 0 (fun x => by ring) leg dens L (some K₁) (some K₂) (h _).1 (h _).1 0, single_cos, over_eq h]
      rfl
    · rw [dens_gen ha hn hm sin 0 1 (fun x => by ring) leg dens L (some K₁) (some K₂) (h _).1 (h _).1 0, single_sin, over_eq h]
      rfl
example : ∃ E < 0, nbodyFull cos [⟨1, 2, 3, 4⟩, ⟨0, 0, -1, 2⟩] 5 2 3 4 1 * E
    = overParticles (basisCos 2 3 4 1) [⟨1, 2, 3, 4⟩, ⟨0, 0, -1, 2⟩] := by
  obtain ⟨E, h, hp, _⟩ := C88_projection (a := 2) two_pos (N := 5) (n := 3) (l := 4) (m := 1) (by norm_num) (by norm_num)
  exact ⟨E, h, (hp _ (by simp; norm_num)).1⟩

/-- Symmetries, particles: the functions for spherical and axisymmetric systems return the entries of the general one. -/
theorem C88_nbody_symmetry {a : ℝ} (ps : List Particle) (N n l : ℕ) :
    nbodySpher ps N a n = nbodyFull cos ps N a n 0 0 ∧ nbodyAxi ps N a n l = nbodyFull cos ps N a n l 0 := by
  refine ⟨?_, ?_⟩
  · unfold nbodySpher nbodyFull
    rw [if_neg (by omega)]
    simp only []
    rw [InlB_eq, Inl_eq, H_one, Knl_zero]
    have e : ∀ q : Particle, q.m * cos (q.phi * (0 : ℕ)) * phinlm N a n 0 0 q = -1 * (q.m / (1 + q.r / a) * CC (RToxi q.r a) N n 0) := fun q => by
      rw [phinlm_eq _ _ le_rfl]
      simp [alp, legP]
      ring
    simp only [e]
    rw [List.sum_map_mul_left]
    have g : Gamma (((0 : ℕ) : ℝ) + (0 : ℕ) + 1) = 1 := by simp
    have q1 : (n : ℝ) + 3 / 2 ≠ 0 := by positivity
    have q2 : (1 : ℝ) + n * (n + 3) / 2 ≠ 0 := by positivity
    generalize (ps.map fun q => q.m / (1 + q.r / a) * CC (RToxi q.r a) N n 0).sum = S
    simp
    generalize (1 : ℝ) + n * (n + 3) / 2 = U at *
    field_simp
    try ring
  · unfold nbodyAxi nbodyFull
    rw [if_neg (by omega)]
    have g : Gamma ((l : ℝ) + 1) ≠ 0 := (Gamma_pos_of_pos (by positivity)).ne'
    simp only [Nat.cast_zero, sub_zero, add_zero, mul_zero, cos_zero, mul_one]
    rw [mul_div_assoc (2 * (l : ℝ) + 1), div_self g, mul_one, div_div_eq_mul_div]
    ring
example : nbodySpher [⟨1, 2, 3, 4⟩, ⟨0, 0, -1, 2⟩] 5 2 3 = nbodyFull cos [⟨1, 2, 3, 4⟩, ⟨0, 0, -1, 2⟩] 5 2 3 0 0 :=
  (C88_nbody_symmetry _ 5 3 0).1

/-- Symmetries, densities: an axisymmetric density has the coefficients of the general function at `m = 0`, all others being zero;
a spherical one those of the axisymmetric function at `l = 0`, all others being zero. -/
theorem C88_symmetry {leg : ℕ → Rule} (h : GaussLegendre leg) (N L : ℕ) (K₁ K₂ : ℕ) {a : ℝ} (ha : 0 < a) (n l : ℕ) :
    (∀ dens : ℝ → ℝ → ℝ, coefAxi leg dens N L a (some K₁) (some K₂) n l
        = coefFull leg cos (fun R z _ => dens R z) N L a (some K₁) (some K₂) n l 0
      ∧ ∀ m, 1 ≤ m → coefFull leg cos (fun R z _ => dens R z) N L a (some K₁) (some K₂) n l m = 0
        ∧ coefFull leg sin (fun R z _ => dens R z) N L a (some K₁) (some K₂) n l m = 0)
    ∧ ∀ dens : ℝ → ℝ, (0 < K₂ → coefSpher leg dens N a (some K₁) n
        = coefAxi leg (fun R z => dens (√(R ^ 2 + z ^ 2))) N L a (some K₁) (some K₂) n 0)
      ∧ (1 ≤ l → l < 2 * K₂ → coefAxi leg (fun R z => dens (√(R ^ 2 + z ^ 2))) N L a (some K₁) (some K₂) n l = 0) := by
  have trigz : ∀ m : ℕ, 1 ≤ m → (∫ φ in (0 : ℝ)..(2 * π), cos (m * φ)) = 0 ∧ (∫ φ in (0 : ℝ)..(2 * π), sin (m * φ)) = 0 := fun m hm => by
    have c := ints m
    have s := intsin m
    rw [if_neg (by omega)] at c
    push_cast at c s
    exact ⟨c, s⟩
  refine ⟨fun dens => ⟨axi_full leg dens N L a _ _ n l, fun m hm => ⟨?_, ?_⟩⟩, fun dens => ?_⟩
  · unfold coefFull quad3
    simp only [quad2_eq, intervalIntegral.integral_mul_const, intervalIntegral.integral_const_mul, (trigz m hm).1]
    simp
  · unfold coefFull quad3
    simp only [quad2_eq, intervalIntegral.integral_mul_const, intervalIntegral.integral_const_mul, (trigz m hm).2]
    simp
  have hr : ∀ i < K₁, ∀ j < K₂, √((xiToR ((leg K₁).x i) a * √(1 - (leg K₂).x j ^ 2)) ^ 2 + (xiToR ((leg K₁).x i) a * (leg K₂).x j) ^ 2)
      = xiToR ((leg K₁).x i) a := fun i hi j hj => by
    obtain ⟨a1, a2⟩ := (h K₁).1 i hi
    obtain ⟨b1, b2⟩ := (h K₂).1 j hj
    have hx : 0 ≤ 1 - (leg K₂).x j ^ 2 := by nlinarith
    have := xiToR_pos ha a1 a2
    generalize xiToR _ _ = r at *
    rw [mul_pow, sq_sqrt hx, show r ^ 2 * (1 - (leg K₂).x j ^ 2) + (r * (leg K₂).x j) ^ 2 = r ^ 2 by ring, sqrt_sq this.le]
  have key : ∀ l, coefAxi leg (fun R z => dens (√(R ^ 2 + z ^ 2))) N L a (some K₁) (some K₂) n l
      = 2 * (Inl n l)⁻¹ * ((∑ j ∈ range K₂, (leg K₂).w j * (alp 0 0 ((leg K₂).x j) * alp l 0 ((leg K₂).x j)))
        * (∑ i ∈ range K₁, (leg K₁).w i * (a ^ 3 * (1 + (leg K₁).x i) ^ l * (1 - (leg K₁).x i) ^ (l + 1) * CC ((leg K₁).x i) N n l
          * dVol ((leg K₁).x i) * dens (xiToR ((leg K₁).x i) a))) * (2 * π)) * (-cFull l 0) := fun l => by
    unfold coefAxi
    simp only []
    rw [neg_mul, cAxi, quad2_eq, show orderR N L (some K₁) = K₁ from rfl, show orderC L (some K₂) = K₂ from rfl]
    congr 3
    show ∑ i ∈ range K₁, ∑ j ∈ range K₂, _ = _
    rw [Finset.sum_mul_sum, Finset.sum_comm]
    refine Finset.sum_congr rfl fun j hj => Finset.sum_congr rfl fun i hi => ?_
    show (leg K₁).w i * (leg K₂).w j * _ = _
    have e0 : ∀ x, alp 0 0 x = 1 := fun x => by simp [alp, legP]
    have := hr i (Finset.mem_range.1 hi) j (Finset.mem_range.1 hj)
    show (leg K₁).w i * (leg K₂).w j * (_ * _ * dens (√((xiToR ((leg K₁).x i) a * √(1 - (leg K₂).x j ^ 2)) ^ 2
      + (xiToR ((leg K₁).x i) a * (leg K₂).x j) ^ 2))) = _
    rw [this, e0]
    unfold PP
    ring
  refine ⟨fun hK => ?_, fun hl hK => ?_⟩
  · rw [key, pol_sum (gauss h K₂) (by omega), if_pos ⟨rfl, le_rfl⟩, Inl_eq, H_one, Knl_zero, cFull_eq le_rfl]
    unfold coefSpher quad1
    simp only [Rule.map_one, Option.getD_some]
    have q1 : (n : ℝ) + 3 / 2 ≠ 0 := by positivity
    have q2 : (1 : ℝ) + n * (n + 3) / 2 ≠ 0 := by positivity
    have e : ∀ i ∈ range K₁, (leg K₁).w i * (a ^ 3 * dens (xiToR ((leg K₁).x i) a) * (1 + (leg K₁).x i) ^ 2 * ((1 - (leg K₁).x i) ^ 3)⁻¹
          * CC ((leg K₁).x i) N n 0)
        = (leg K₁).w i * (a ^ 3 * (1 + (leg K₁).x i) ^ 0 * (1 - (leg K₁).x i) ^ (0 + 1) * CC ((leg K₁).x i) N n 0
          * dVol ((leg K₁).x i) * dens (xiToR ((leg K₁).x i) a)) := fun i hi => by
      have p2 : 1 - (leg K₁).x i ≠ 0 := by have := ((h K₁).1 i (Finset.mem_range.1 hi)).2; linarith
      unfold dVol
      rw [zero_add, pow_one, pow_zero]
      field_simp
    rw [Finset.sum_congr rfl e]
    generalize ∑ i ∈ range K₁, (leg K₁).w i * (a ^ 3 * (1 + (leg K₁).x i) ^ 0 * (1 - (leg K₁).x i) ^ (0 + 1) * CC ((leg K₁).x i) N n 0
          * dVol ((leg K₁).x i) * dens (xiToR ((leg K₁).x i) a)) = S
    generalize (1 : ℝ) + n * (n + 3) / 2 = U at *
    simp
    field_simp
    try norm_num
    try ring
  · rw [key, pol_sum (gauss h K₂) (by omega), if_neg (by omega)]
    ring
example : ∃ leg, GaussLegendre leg ∧ coefSpher leg (fun r => exp (-r)) 5 2 (some 10) 3
    = coefAxi leg (fun R z => exp (-√(R ^ 2 + z ^ 2))) 5 4 2 (some 10) (some 12) 3 0 := by
  obtain ⟨leg, h⟩ := exists_leg
  exact ⟨leg, h, ((C88_symmetry h 5 4 10 12 two_pos 3 0).2 fun r => exp (-r)).1 (by norm_num)⟩

/-- Batches of particles: whatever the batch size, the sum over batches is the single sum. -/
theorem C88_batch_particles (bytes : ℕ) (s : Sym) (ps : List Particle) (hne : ps ≠ []) (N : ℕ) (a : ℝ) :
    batched bytes s ps N a = some (nbodyCoef s ps N a) := by
  unfold batched
  rw [dif_neg hne, batchLoop_eq _ (nbodyCoef_append s N a) _ _ none ps, if_neg hne]
  rfl
example : batched 1 .none [⟨1, 2, 3, 4⟩, ⟨0, 0, -1, 2⟩, ⟨1, 0, -1, 2⟩] 5 2
    = some ⟨nbodyFull cos [⟨1, 2, 3, 4⟩, ⟨0, 0, -1, 2⟩, ⟨1, 0, -1, 2⟩] 5 2, nbodyFull sin [⟨1, 2, 3, 4⟩, ⟨0, 0, -1, 2⟩, ⟨1, 0, -1, 2⟩] 5 2⟩ :=
  C88_batch_particles 1 .none _ (by simp) 5 2

/-- Batches of times: when each time is computed by itself, the concatenated batches are the computation of the whole grid, in
order. -/
theorem C88_batch_times {α : Type} (bytes elems : ℕ) (g : ℝ → α) (ts : List ℝ) :
    batchedTime bytes elems (fun ts => ts.map g) ts = ts.map g := by
  unfold batchedTime
  simp only []
  split_ifs with h
  · rfl
  · exact timeLoop_eq g _ _ ts
example : batchedTime 16 1 (fun ts => ts.map fun t => 2 * t) [1, 2, 3, 4, 5] = [1, 2, 3, 4, 5].map fun t => (2 : ℝ) * t :=
  C88_batch_times 16 1 _ _

end Verif
