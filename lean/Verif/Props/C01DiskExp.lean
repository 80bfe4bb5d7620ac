import Verif.Lemmas.Pot.DiskExpansionC
import Verif.Props.C51SCF
import Verif.Props.C01SCF
import Verif.Props.C88

set_option autoImplicit false

/-!
# Disk expansions (DiskSCFPotential): forces, second derivatives, density, mass, C, and how close the density is to the target

C01-C03, C51, C62 and C89 for potentials made of an expansion object and a sum of closed-form pairs.
-/

noncomputable section
open Real

namespace Verif
open DiskExp

namespace C89Spec

/-- The user's functions are right: each derivative is the derivative it is meant to be. -/
def Right (s ds d2s h H dH : ℝ → ℝ) : Prop :=
  (∀ r, 0 < r → HasDerivAt s (ds r) r ∧ HasDerivAt ds (d2s r) r) ∧ ∀ z, HasDerivAt H (dH z) z ∧ HasDerivAt dH (h z) z

/-- All numbers given in the dictionaries are positive. -/
def Positive (Sig : List SigDict) (hz : List HzDict) : Prop :=
  (∀ d ∈ Sig, (∀ x ∈ d.h, 0 < x) ∧ ∀ x ∈ d.Rhole, 0 < x) ∧ ∀ d ∈ hz, ∀ x ∈ d.h, 0 < x

/-- The Laplacian over `4 π` of `4 π a s(r) H(z)`: the density of one pair. -/
def pairDens (a : ℝ) (s H : ℝ → ℝ) (R z : ℝ) : ℝ :=
  let F := fun R z : ℝ => 4 * π * a * s (√(R ^ 2 + z ^ 2)) * H z
  (deriv (fun x => deriv (fun y => F y z) x) R + deriv (fun x => F x z) R / R + deriv (fun x => deriv (fun y => F R y) x) z) / (4 * π)

end C89Spec
open C89Spec

namespace C89aux

theorem ok {ps : List Pair} (k : ∀ p ∈ ps, Right p.s p.ds p.d2s p.h p.H p.dH) : ∀ p ∈ ps, p.Ok := fun p hp =>
  ⟨fun r hr => ((k p hp).1 r hr).1, fun r hr => ((k p hp).1 r hr).2, fun z => ((k p hp).2 z).1, fun z => ((k p hp).2 z).2⟩

theorem pos {Sig : List SigDict} {hz : List HzDict} (h : Positive Sig hz) : (∀ d ∈ Sig, d.Pos) ∧ ∀ d ∈ hz, d.Pos := h

theorem r_pos {R : ℝ} (hR : 0 < R) (z : ℝ) : 0 < R ^ 2 + z ^ 2 := by positivity

/-- Two pairs from dictionaries: an exponential with a hole and the default sech². -/
def sig : List SigDict := [⟨some "expwhole", some 1, some 2, none⟩, ⟨none, none, none, none⟩]
def hzs : List HzDict := [⟨some "sech2", some (1 / 10)⟩]
theorem sig_pos : Positive sig hzs := by
  refine ⟨?_, ?_⟩ <;> simp [sig, hzs]
theorem parse_ex : ∃ ps, parsePairs sig hzs = .ok ps ∧ ps.length = 2 := by
  simp [parsePairs, sig, hzs, storedHz, parseSigma, parseHz, bind, Except.bind, pure, Except.pure, List.mapM_cons, List.mapM_nil]

theorem scf_axi {p : SCF.Par} (hM : p.M ≤ 1) (c R z φ t : ℝ) :
    ((SCF.raw p).scale c).val R z φ t = ((SCF.raw p).scale c).val R z 0 t := by
  simp only [Pot.scale, SCF.raw, SCF.evaluate, SCF.atPoint, SCF.Par.sum, Coords.cyl_to_spher]
  congr 1
  refine Finset.sum_congr rfl fun n _ => Finset.sum_congr rfl fun l _ => Finset.sum_congr rfl fun m hm => ?_
  obtain rfl : m = 0 := by have := Finset.mem_range.1 hm; omega
  simp

theorem scf_near {p : SCF.Par} (ha : 0 < p.a) (c : ℝ) {R : ℝ} (hR : 0 < R) (z φ t : ℝ) : GradNear ((SCF.raw p).scale c) R z φ t :=
  ⟨(lt_mem_nhds hR).mono fun _ h => (SCF.grad ha h φ t).scale c, Filter.Eventually.of_forall fun _ => (SCF.grad ha hR φ t).scale c,
    Filter.Eventually.of_forall fun _ => (SCF.grad ha hR _ t).scale c⟩

/-- The Poisson equation of the SCF object in the form needed here needs its Hessian, which near the axis the code does not give;
the diagonal part is enough. -/
theorem scf_hess {p : SCF.Par} (ha : 0 < p.a) (hM : p.M ≤ 1) (c : ℝ) {R : ℝ} (hR : 0 < R) (z φ t : ℝ) :
    HessAt ((SCF.raw p).scale c) R z φ t := (SCF.hess ha hR (Or.inl hM) φ t).scale c

end C89aux
open C89aux

/-! ### Any expansion object, any functions -/

/-- Forces of a disk expansion: minus the derivatives of the potential, for every expansion object whose own forces are, and all
functions that are the derivatives they are meant to be. -/
theorem C01_DiskExpansion (amp : ℝ) {me : Pot} {ps : List Pair} (k : ∀ p ∈ ps, Right p.s p.ds p.d2s p.h p.H p.dH) {R : ℝ} (hR : 0 < R)
    {z φ t : ℝ} (g : GradAt me R z φ t) : GradAt ((DiskExp.raw me ps).scale amp) R z φ t := (grad (ok k) (r_pos hR z) g).scale amp

/-- Second derivatives of a disk expansion with an axisymmetric expansion object. -/
theorem C02_DiskExpansion (amp : ℝ) {me : Pot} {ps : List Pair} (k : ∀ p ∈ ps, Right p.s p.ds p.d2s p.h p.H p.dH) {R : ℝ} (hR : 0 < R)
    {z φ t : ℝ} (g : GradNear me R z φ t) (h : HessAt me R z φ t) (ax : ∀ R z φ t, me.val R z φ t = me.val R z 0 t) :
    HessAt ((DiskExp.raw me ps).scale amp) R z φ t := (hess (ok k) (r_pos hR z) g h ax).scale amp

/-- Without axisymmetry the object has no mixed azimuthal derivatives (the methods raise); the other four are right. -/
theorem C02_DiskExpansion_nonaxi_partial {me : Pot} {ps : List Pair} (k : ∀ p ∈ ps, Right p.s p.ds p.d2s p.h p.H p.dH) {R : ℝ} (hR : 0 < R)
    {z φ t : ℝ} (g : GradNear me R z φ t) (h : HessAt me R z φ t) :
    HasDerivAt (fun x => deriv (fun y => (DiskExp.raw me ps).val y z φ t) x) ((DiskExp.raw me ps).R2deriv R z φ t) R
    ∧ HasDerivAt (fun x => deriv (fun y => (DiskExp.raw me ps).val y x φ t) R) ((DiskExp.raw me ps).Rzderiv R z φ t) z
    ∧ HasDerivAt (fun x => deriv (fun y => (DiskExp.raw me ps).val x y φ t) z) ((DiskExp.raw me ps).Rzderiv R z φ t) R
    ∧ HasDerivAt (fun x => deriv (fun y => (DiskExp.raw me ps).val R y φ t) x) ((DiskExp.raw me ps).z2deriv R z φ t) z
    ∧ HasDerivAt (fun x => deriv (fun y => (DiskExp.raw me ps).val R z y t) x) ((DiskExp.raw me ps).phi2deriv R z φ t) φ :=
  hess4 (ok k) (r_pos hR z) g h

/-- Density of a disk expansion: Poisson's equation, axisymmetric or not. -/
theorem C03_DiskExpansion (amp : ℝ) {me : Pot} {ps : List Pair} (k : ∀ p ∈ ps, Right p.s p.ds p.d2s p.h p.H p.dH) {R : ℝ} (hR : 0 < R)
    {z φ t : ℝ} (g : GradNear me R z φ t) (h : HessAt me R z φ t) (q : PoissonAt me R z φ t) :
    PoissonAt ((DiskExp.raw me ps).scale amp) R z φ t := (poisson (ok k) hR.ne' g h q).scale amp

/-- Functions given by a user: a Gaussian surface density and the vertical profile `sech²(z)/2`. -/
def C89aux.user : Pair := ⟨3, fun r => exp (-r ^ 2), fun r => -2 * r * exp (-r ^ 2), fun r => (4 * r ^ 2 - 2) * exp (-r ^ 2),
  fun z => (1 - tanh z ^ 2) / 2, fun z => log (cosh z) / 2, fun z => tanh z / 2⟩
theorem C89aux.user_right : ∀ p ∈ [user], Right p.s p.ds p.d2s p.h p.H p.dH := by
  intro p hp
  rw [List.mem_singleton.1 hp]
  refine ⟨fun r _ => ⟨?_, ?_⟩, fun z => ⟨?_, ?_⟩⟩
  · apply HasDerivAt.congr_deriv
    · unfold user; hasderiv
    · simp only [user]; push_cast; ring
  · apply HasDerivAt.congr_deriv
    · unfold user; hasderiv
    · simp only [user]; push_cast; ring
  · apply HasDerivAt.congr_deriv
    · unfold user; hasderiv
      exact (cosh_pos z).ne'
    · simp only [user]; rw [tanh_eq_sinh_div_cosh]; ring
  · apply HasDerivAt.congr_deriv
    · unfold user; hasderiv
    · simp only [user]; ring
example (z φ t : ℝ) : GradAt ((DiskExp.raw ((SCF.raw (C01SCFaux.one 2 3 4 4 1 2 1)).scale (1 / 2)) [user]).scale 5) 1 z φ t :=
  C01_DiskExpansion 5 user_right one_pos (C01_SCF 1 _ (by norm_num [C01SCFaux.one]) one_pos z φ t)
example (z φ t : ℝ) : HessAt ((DiskExp.raw ((SCF.raw (C01SCFaux.one 2 3 4 1 1 2 0)).scale (1 / 2)) [user]).scale 5) 1 z φ t
    ∧ PoissonAt ((DiskExp.raw ((SCF.raw (C01SCFaux.one 2 3 4 1 1 2 0)).scale (1 / 2)) [user]).scale 5) 1 z φ t :=
  ⟨C02_DiskExpansion 5 user_right one_pos (scf_near (by norm_num [C01SCFaux.one]) _ one_pos z φ t)
      (scf_hess (by norm_num [C01SCFaux.one]) le_rfl _ one_pos z φ t) (scf_axi le_rfl _),
    C03_DiskExpansion 5 user_right one_pos (scf_near (by norm_num [C01SCFaux.one]) _ one_pos z φ t)
      (scf_hess (by norm_num [C01SCFaux.one]) le_rfl _ one_pos z φ t) (C03_SCF 1 _ (by norm_num [C01SCFaux.one]) one_pos z φ t)⟩
example : HasDerivAt (fun x => deriv (fun y => (DiskExp.raw ((SCF.raw (C01SCFaux.one 2 3 4 4 1 2 1)).scale (1 / 2)) [user]).val 1 2 y 0) x)
    ((DiskExp.raw ((SCF.raw (C01SCFaux.one 2 3 4 4 1 2 1)).scale (1 / 2)) [user]).phi2deriv 1 2 3 0) 3 :=
  (C02_DiskExpansion_nonaxi_partial user_right one_pos (scf_near (by norm_num [C01SCFaux.one]) _ one_pos _ _ _)
    (C02_SCF_partial 1 _ (by norm_num [C01SCFaux.one]) one_pos (Or.inr (by norm_num)) _ _)).2.2.2.2

/-! ### DiskSCFPotential from dictionaries -/

/-- `DiskSCFPotential` of an axisymmetric density with surface densities and vertical profiles given by dictionaries: forces, second
derivatives and density are those of its potential, for every target density, every rule of integration and all orders. -/
theorem C01_DiskSCF (leg : ℕ → SCF.Rule) (amp : ℝ) (dens : ℝ → ℝ → ℝ) {Sig : List SigDict} {hz : List HzDict} {ps : List Pair}
    (h : parsePairs Sig hz = .ok ps) (k : Positive Sig hz) (N L : ℕ) {a : ℝ} (ha : 0 < a) (ro co : Option ℕ) {R : ℝ} (hR : 0 < R) (z φ t : ℝ) :
    GradAt (diskSCF leg amp dens ps N L a ro co) R z φ t :=
  (grad (pairs_ok h k.1 k.2).1 (r_pos hR z) ((SCF.grad ha hR φ t).scale _)).scale amp
theorem C02_DiskSCF (leg : ℕ → SCF.Rule) (amp : ℝ) (dens : ℝ → ℝ → ℝ) {Sig : List SigDict} {hz : List HzDict} {ps : List Pair}
    (h : parsePairs Sig hz = .ok ps) (k : Positive Sig hz) (N L : ℕ) {a : ℝ} (ha : 0 < a) (ro co : Option ℕ) {R : ℝ} (hR : 0 < R) (z φ t : ℝ) :
    HessAt (diskSCF leg amp dens ps N L a ro co) R z φ t :=
  (hess (pairs_ok h k.1 k.2).1 (r_pos hR z) (scf_near (by exact ha) _ hR z φ t) (scf_hess (by exact ha) le_rfl _ hR z φ t) (scf_axi le_rfl _)).scale amp
theorem C03_DiskSCF (leg : ℕ → SCF.Rule) (amp : ℝ) (dens : ℝ → ℝ → ℝ) {Sig : List SigDict} {hz : List HzDict} {ps : List Pair}
    (h : parsePairs Sig hz = .ok ps) (k : Positive Sig hz) (N L : ℕ) {a : ℝ} (ha : 0 < a) (ro co : Option ℕ) {R : ℝ} (hR : 0 < R) (z φ t : ℝ) :
    PoissonAt (diskSCF leg amp dens ps N L a ro co) R z φ t :=
  (poisson (pairs_ok h k.1 k.2).1 hR.ne' (scf_near (by exact ha) _ hR z φ t) (scf_hess (by exact ha) le_rfl _ hR z φ t)
    ((SCF.poisson ha hR φ t).scale _)).scale amp
example (leg : ℕ → SCF.Rule) (z φ t : ℝ) : ∃ ps, parsePairs sig hzs = .ok ps ∧
    GradAt (diskSCF leg 3 (fun R z => exp (-R - |z|)) ps 10 10 1 none none) 1 z φ t
    ∧ HessAt (diskSCF leg 3 (fun R z => exp (-R - |z|)) ps 10 10 1 none none) 1 z φ t
    ∧ PoissonAt (diskSCF leg 3 (fun R z => exp (-R - |z|)) ps 10 10 1 none none) 1 z φ t := by
  obtain ⟨ps, h, -⟩ := parse_ex
  exact ⟨ps, h, C01_DiskSCF leg 3 _ h sig_pos 10 10 one_pos _ _ one_pos _ _ _, C02_DiskSCF leg 3 _ h sig_pos 10 10 one_pos _ _ one_pos _ _ _,
    C03_DiskSCF leg 3 _ h sig_pos 10 10 one_pos _ _ one_pos _ _ _⟩

/-- The enclosed mass adds to that of the expansion object exactly the integral of the rest of the density over the sphere. -/
theorem C62_DiskExpansion (me : Pot) (meMass : ℝ → ℝ) {Sig : List SigDict} {hz : List HzDict} {ps : List Pair}
    (h : parsePairs Sig hz = .ok ps) (k : Positive Sig hz) {R : ℝ} (hR : 0 < R) (t : ℝ) :
    mass meMass ps R = meMass R + ∫ r in (0 : ℝ)..R, ∫ θ in (0 : ℝ)..π, ∫ φ in (0 : ℝ)..(2 * π),
      ((DiskExp.raw me ps).dens (r * sin θ) (r * cos θ) φ t - me.dens (r * sin θ) (r * cos θ) φ t) * (r ^ 2 * sin θ) :=
  mass_eq me meMass (pairs_ok h k.1 k.2).1 (pairs_ok h k.1 k.2).2 hR t
example : ∃ ps, parsePairs sig hzs = .ok ps ∧ ∀ me : Pot, mass (fun R => 5 * R) ps 2 = 5 * 2
    + ∫ r in (0 : ℝ)..2, ∫ θ in (0 : ℝ)..π, ∫ φ in (0 : ℝ)..(2 * π),
      ((DiskExp.raw me ps).dens (r * sin θ) (r * cos θ) φ 0 - me.dens (r * sin θ) (r * cos θ) φ 0) * (r ^ 2 * sin θ) := by
  obtain ⟨ps, h, -⟩ := parse_ex
  exact ⟨ps, h, fun me => C62_DiskExpansion me _ h sig_pos two_pos 0⟩

/-! ### C -/

/-- The numbers passed to C are read back pair by pair, and the sums over the pairs of the C functions plus the C functions of the SCF
object are amplitude times the Python methods. `c` is the SCF object in C (C51 for SCFPotential). -/
theorem C51_DiskSCF (amp : ℝ) {p : SCF.Par} {ax : Bool} {s : SCF.Spl} (o : C51SCFaux.Ok p ax s) {Sig : List SigDict} {hz : List HzDict} {ps : List Pair}
    (h : parsePairs Sig hz = .ok ps) (k : Positive Sig hz) {R : ℝ} (hR : 0 < R) (z φ t : ℝ) :
    let c := fun f z => (SCF.callC (SCF.parse p ax (amp * (1 / 2)) s) .init f R z φ t).2
    let b := readC (parseC amp Sig hz).1 (parseC amp Sig hz).2
    let P := (DiskExp.raw ((SCF.raw p).scale (1 / 2)) ps).scale amp
    b.length = ps.length
    ∧ c .eval z + cSum (cEval · R z) b = P.val R z φ t
    ∧ c .Rforce z + cSum (cRforce · R z) b = P.Rforce R z φ t
    ∧ c .zforce z + cSum (czforce · R z) b = P.zforce R z φ t
    ∧ c .phitorque z = P.phitorque R z φ t
    ∧ c .dens z + cSum (cDens · R z) b = P.dens R z φ t
    ∧ (p.M ≤ 1 ∨ 1e-14 ≤ R ^ 2 / (R ^ 2 + z ^ 2) →
      c .R2deriv z + cSum (cR2deriv · R z) b = P.R2deriv R z φ t
      ∧ c .z2deriv z + cSum (cz2deriv · R z) b = P.z2deriv R z φ t
      ∧ c .Rzderiv z + cSum (cRzderiv · R z) b = P.Rzderiv R z φ t
      ∧ c .phi2deriv z = P.phi2deriv R z φ t)
    ∧ c .planarRforce z + cSum (cPlanarRforce · R) b = P.Rforce R 0 φ t
    ∧ c .planarR2deriv z + cSum (cPlanarR2deriv · R) b = P.R2deriv R 0 φ t
    ∧ c .planarphitorque z = P.phitorque R 0 φ t ∧ c .planarphi2deriv z = P.phi2deriv R 0 φ t := by
  intro c b P
  have r : List.Forall₂ (Rep amp) b ps := blocks_rep h k.2
  have hr : 0 < √(R ^ 2 + z ^ 2) := sqrt_pos.2 (r_pos hR z)
  have e2 : √(R * R + z * z) = √(R ^ 2 + z ^ 2) := by rw [sq, sq]
  have e0 : √(R ^ 2 + 0 ^ 2) = R := by rw [show R ^ 2 + 0 ^ 2 = R ^ 2 by ring, sqrt_sq hR.le]
  have S := C51_SCF amp o hR z φ t
  simp only [show amp / 2 = amp * (1 / 2) by ring] at S
  obtain ⟨s1, s2, s3, s4, s5, s6, s7, s8, s9, s10, -⟩ := S
  simp only [Pot.scale] at s1 s2 s3 s4 s5 s6 s7 s8 s9 s10
  change c .eval z = _ at s1
  change c .dens z = _ at s2
  change c .Rforce z = _ at s3
  change c .zforce z = _ at s4
  change c .phitorque z = _ at s5
  change _ → c .R2deriv z = _ ∧ c .z2deriv z = _ ∧ c .Rzderiv z = _ ∧ c .phi2deriv z = _ ∧ _ at s6
  change c .planarRforce z = _ at s7
  change c .planarphitorque z = _ at s8
  change c .planarR2deriv z = _ at s9
  change c .planarphi2deriv z = _ at s10
  refine ⟨r.length_eq, ?_, ?_, ?_, ?_, ?_, fun q => ?_, ?_, ?_, ?_, ?_⟩
  · rw [s1, cSum_eq r (g := fun p => 4 * π * p.a * p.s (√(R ^ 2 + z ^ 2)) * p.H z)]
    · simp only [P, Pot.scale, DiskExp.raw, evaluate, foldl_add (fun p : Pair => 4 * π * p.a * p.s (√(R ^ 2 + z ^ 2)) * p.H z)]
      ring
    · intro b p q
      simp only [cEval, e2, q.s, q.H]; ring
  · rw [s3, cSum_eq r (g := fun p => -(4 * π * p.a * p.ds (√(R ^ 2 + z ^ 2)) * p.H z * R / √(R ^ 2 + z ^ 2)))]
    · simp only [P, Pot.scale, DiskExp.raw, DiskExp.Rforce, foldl_sub (fun p : Pair => 4 * π * p.a * p.ds (√(R ^ 2 + z ^ 2)) * p.H z * R / √(R ^ 2 + z ^ 2)),
        map_neg_sum]
      ring
    · intro b p q
      simp only [cRforce, e2, q.ds, q.H]; ring
  · rw [s4, cSum_eq r (g := fun p => -(4 * π * p.a * (p.ds (√(R ^ 2 + z ^ 2)) * p.H z * z / √(R ^ 2 + z ^ 2) + p.s (√(R ^ 2 + z ^ 2)) * p.dH z)))]
    · simp only [P, Pot.scale, DiskExp.raw, DiskExp.zforce, foldl_sub (fun p : Pair => 4 * π * p.a * (p.ds (√(R ^ 2 + z ^ 2)) * p.H z * z / √(R ^ 2 + z ^ 2) + p.s (√(R ^ 2 + z ^ 2)) * p.dH z)),
        map_neg_sum]
      ring
    · intro b p q
      simp only [czforce, e2, q.ds, q.H, q.dH, q.s]; ring
  · rw [s5]; simp only [P, Pot.scale, DiskExp.raw, DiskExp.phitorque]; ring
  · rw [s2, cSum_eq r (g := fun p => p.rho (√(R ^ 2 + z ^ 2)) z)]
    · simp only [P, Pot.scale, DiskExp.raw, DiskExp.dens, foldl_add (fun p : Pair => p.rho (√(R ^ 2 + z ^ 2)) z)]
      ring
    · intro b p q
      simp only [cDens, e2, q.ds, q.H, q.dH, q.s, q.h, q.d2s, Pair.rho]
      field_simp
  · obtain ⟨t1, t2, t3, t4, -⟩ := s6 q
    refine ⟨?_, ?_, ?_, ?_⟩
    · rw [t1, cSum_eq r (g := fun p => 4 * π * p.a * p.H z / √(R ^ 2 + z ^ 2) ^ 2 * (p.d2s (√(R ^ 2 + z ^ 2)) * R ^ 2 + z ^ 2 / √(R ^ 2 + z ^ 2) * p.ds (√(R ^ 2 + z ^ 2))))]
      · simp only [P, Pot.scale, DiskExp.raw, DiskExp.R2deriv, foldl_add (fun p : Pair => 4 * π * p.a * p.H z / √(R ^ 2 + z ^ 2) ^ 2 * (p.d2s (√(R ^ 2 + z ^ 2)) * R ^ 2 + z ^ 2 / √(R ^ 2 + z ^ 2) * p.ds (√(R ^ 2 + z ^ 2))))]
        ring
      · intro b p q
        simp only [cR2deriv, e2, q.ds, q.H, q.d2s]; ring
    · rw [t2, cSum_eq r (g := fun p => 4 * π * p.a * (p.H z / √(R ^ 2 + z ^ 2) ^ 2 * (p.d2s (√(R ^ 2 + z ^ 2)) * z ^ 2 + p.ds (√(R ^ 2 + z ^ 2)) * R ^ 2 / √(R ^ 2 + z ^ 2))
          + 2 * p.ds (√(R ^ 2 + z ^ 2)) * p.dH z * z / √(R ^ 2 + z ^ 2) + p.s (√(R ^ 2 + z ^ 2)) * p.h z))]
      · simp only [P, Pot.scale, DiskExp.raw, DiskExp.z2deriv, foldl_add (fun p : Pair => 4 * π * p.a * (p.H z / √(R ^ 2 + z ^ 2) ^ 2 * (p.d2s (√(R ^ 2 + z ^ 2)) * z ^ 2 + p.ds (√(R ^ 2 + z ^ 2)) * R ^ 2 / √(R ^ 2 + z ^ 2))
          + 2 * p.ds (√(R ^ 2 + z ^ 2)) * p.dH z * z / √(R ^ 2 + z ^ 2) + p.s (√(R ^ 2 + z ^ 2)) * p.h z))]
        ring
      · intro b p q
        simp only [cz2deriv, e2, q.ds, q.H, q.d2s, q.dH, q.s, q.h]; ring
    · rw [t3, cSum_eq r (g := fun p => 4 * π * p.a * (p.H z * R * z / √(R ^ 2 + z ^ 2) ^ 2 * (p.d2s (√(R ^ 2 + z ^ 2)) - p.ds (√(R ^ 2 + z ^ 2)) / √(R ^ 2 + z ^ 2)) + p.ds (√(R ^ 2 + z ^ 2)) * p.dH z * R / √(R ^ 2 + z ^ 2)))]
      · simp only [P, Pot.scale, DiskExp.raw, DiskExp.Rzderiv, foldl_add (fun p : Pair => 4 * π * p.a * (p.H z * R * z / √(R ^ 2 + z ^ 2) ^ 2 * (p.d2s (√(R ^ 2 + z ^ 2)) - p.ds (√(R ^ 2 + z ^ 2)) / √(R ^ 2 + z ^ 2)) + p.ds (√(R ^ 2 + z ^ 2)) * p.dH z * R / √(R ^ 2 + z ^ 2)))]
        ring
      · intro b p q
        simp only [cRzderiv, e2, q.ds, q.H, q.d2s, q.dH]; ring
    · rw [t4]; simp only [P, Pot.scale, DiskExp.raw, DiskExp.phi2deriv]; ring
  · rw [s7, cSum_eq r (g := fun p => -(4 * π * p.a * p.ds R * p.H 0 * R / R))]
    · simp only [P, Pot.scale, DiskExp.raw, DiskExp.Rforce, e0, foldl_sub (fun p : Pair => 4 * π * p.a * p.ds R * p.H 0 * R / R), map_neg_sum]
      ring
    · intro b p q
      simp only [cPlanarRforce, q.ds, q.H]; field_simp
  · rw [s9, cSum_eq r (g := fun p => 4 * π * p.a * p.H 0 / R ^ 2 * (p.d2s R * R ^ 2 + 0 ^ 2 / R * p.ds R))]
    · simp only [P, Pot.scale, DiskExp.raw, DiskExp.R2deriv, e0, foldl_add (fun p : Pair => 4 * π * p.a * p.H 0 / R ^ 2 * (p.d2s R * R ^ 2 + 0 ^ 2 / R * p.ds R))]
      ring
    · intro b p q
      simp only [cPlanarR2deriv, q.d2s, q.H]; field_simp; ring
  · rw [s8]; simp only [P, Pot.scale, DiskExp.raw, DiskExp.phitorque]; ring
  · rw [s10]; simp only [P, Pot.scale, DiskExp.raw, DiskExp.phi2deriv]; ring

/-- Two pairs of two kinds with any static expansion the constructor accepts. -/
example (N : ℕ) (As : Option (ℕ → ℕ → ℕ → ℝ)) (p : SCF.Par) (ax : Bool) (h : SCF.construct 2 N 3 3 (fun _ _ _ => 0) As true = .ok (p, ax)) :
    ∃ ps, parsePairs sig hzs = .ok ps
    ∧ (SCF.callC (SCF.parse p ax (3 * (1 / 2)) ⟨0, fun _ => 0, fun _ _ _ => 0, fun _ _ _ => 0⟩) .init .eval 1 2 3 4).2
      + cSum (cEval · 1 2) (readC (parseC 3 sig hzs).1 (parseC 3 sig hzs).2) = ((DiskExp.raw ((SCF.raw p).scale (1 / 2)) ps).scale 3).val 1 2 3 4 := by
  obtain ⟨ps, k, l⟩ := parse_ex
  exact ⟨ps, k, (C51_DiskSCF 3 (C51_SCF_built two_pos h _).1 k sig_pos one_pos 2 3 4).2.1⟩

/-! ### The density and the target -/

/-- The density of the object differs from the target by the error of the expansion of the residual and by nothing else; the residual
is the target minus the densities (Laplacians) of the closed-form pairs. -/
theorem C89_error (amp : ℝ) {me : Pot} (target : ℝ → ℝ → ℝ → ℝ) {ps : List Pair} (k : ∀ p ∈ ps, Right p.s p.ds p.d2s p.h p.H p.dH)
    {R : ℝ} (hR : 0 < R) (z φ t : ℝ) :
    ((DiskExp.raw me ps).scale amp).dens R z φ t - amp * target R z φ = amp * (me.dens R z φ t - phiME_dens ps target R z φ)
    ∧ phiME_dens ps target R z φ = target R z φ - (ps.map fun p => pairDens p.a p.s p.H R z).sum := by
  have e : (ps.map fun p => pairDens p.a p.s p.H R z) = ps.map fun p => p.rho (√(R ^ 2 + z ^ 2)) z := by
    refine List.map_congr_left fun p hp => ?_
    have c := (pair_consistent (ok k p hp)).poisson R z 0 0 (r_pos hR z) hR.ne'
    have g := (pair_consistent (ok k p hp)).grad R z 0 0 (r_pos hR z)
    unfold PoissonAt at c
    simp only [Pair.pot, Pot.axi] at c
    unfold pairDens
    simp only [deriv_const', zero_div, add_zero] at c ⊢
    rw [← c]
    field_simp
  refine ⟨?_, ?_⟩
  · simp only [Pot.scale, DiskExp.raw, DiskExp.dens, phiME_dens, foldl_add (fun p : Pair => p.rho (√(R ^ 2 + z ^ 2)) z),
      foldl_sub (fun p : Pair => p.rho (√(R ^ 2 + z ^ 2)) z)]
    ring
  · rw [e]
    simp only [phiME_dens, foldl_sub (fun p : Pair => p.rho (√(R ^ 2 + z ^ 2)) z)]
example (z : ℝ) : phiME_dens [user] (fun R z _ => R + z) 1 z 0 = 1 + z - ([user].map fun p => pairDens p.a p.s p.H 1 z).sum :=
  (C89_error 1 (me := Pot.zero) (fun R z _ => R + z) user_right one_pos z 0 0).2

/-- If the residual of the target is an expansion of the orders asked for, the density of the `DiskSCFPotential` built for it is the
target exactly, at every point; with up to four multipoles for the default orders of integration. Missing: more multipoles with the
default order, where the coefficients are not exact (C88). -/
theorem C89_exact_partial {leg : ℕ → SCF.Rule} (hl : C88Spec.GaussLegendre leg) (amp : ℝ) (target : ℝ → ℝ → ℝ) (ps : List Pair) (N L : ℕ)
    (hL : L ≤ 4) {a : ℝ} (ha : 0 < a) (A : ℕ → ℕ → ℝ)
    (res : ∀ R z, phiME_dens ps (fun R z _ => target R z) R z 0 = (C88Spec.expansion a N L 1 (fun n l _ => A n l) fun _ _ _ => 0).dens R z 0 0)
    (R z φ t : ℝ) :
    (diskSCF leg amp target ps N L a none none).dens R z φ t = amp * target R z := by
  have r' : (fun R z => phiME_dens ps (fun R z _ => target R z) R z 0)
      = fun R z => (C88Spec.expansion a N L 1 (fun n l _ => A n l) fun _ _ _ => 0).dens R z 0 0 := by
    funext R z; exact res R z
  have q : ∀ R z, phiME_dens ps (fun R z _ => target R z) R z 0
      = target R z - (ps.map fun p => p.rho (√(R ^ 2 + z ^ 2)) z).sum := fun R z => by
    simp only [phiME_dens, foldl_sub (fun p : Pair => p.rho (√(R ^ 2 + z ^ 2)) z)]
  have r2 := (q R z).symm.trans (res R z)
  unfold diskSCF
  simp only [r']
  simp only [Pot.scale, DiskExp.raw, DiskExp.dens, foldl_add (fun p : Pair => p.rho (√(R ^ 2 + z ^ 2)) z)]
  congr 1
  rw [eq_comm, ← sub_eq_iff_eq_add, r2]
  simp only [C88Spec.expansion, Pot.scale, SCF.raw, SCF.dens, SCF.atPoint, SCF.Par.sum, Coords.cyl_to_spher]
  congr 1
  refine Finset.sum_congr rfl fun n hn => Finset.sum_congr rfl fun l hl' => Finset.sum_congr rfl fun m hm => ?_
  obtain rfl : m = 0 := by have := Finset.mem_range.1 hm; omega
  have ee := C88_axi_default hl ha N L hL A (Finset.mem_range.1 hn) (Finset.mem_range.1 hl')
  simp only [SCF.Par.coef, Bool.false_eq_true, if_false]
  simp only [C88Spec.expansion, Pot.scale, SCF.raw, SCF.dens, SCF.atPoint, SCF.Par.sum, Coords.cyl_to_spher, SCF.Par.coef,
    Bool.false_eq_true, if_false] at ee
  simp only [ee]
  simp
/-- A target that is the sum of a pair and an expansion. -/
example : ∃ leg, C88Spec.GaussLegendre leg ∧ ∀ R z φ t,
    (diskSCF leg 3 (fun R z => (C88Spec.expansion 2 7 4 1 (fun n l _ => n + l) fun _ _ _ => 0).dens R z 0 0 + user.rho (√(R ^ 2 + z ^ 2)) z)
      [user] 7 4 2 none none).dens R z φ t
      = 3 * ((C88Spec.expansion 2 7 4 1 (fun n l _ => n + l) fun _ _ _ => 0).dens R z 0 0 + user.rho (√(R ^ 2 + z ^ 2)) z) := by
  obtain ⟨leg, h⟩ := C88aux.exists_leg
  refine ⟨leg, h, fun R z φ t => C89_exact_partial h 3 _ [user] 7 4 le_rfl two_pos (fun n l => n + l) (fun R z => ?_) R z φ t⟩
  simp [phiME_dens]

/-- The same for targets of three arguments, with any orders of integration that are large enough for the coefficients. -/
theorem C89_exact3 {leg : ℕ → SCF.Rule} (hl : C88Spec.GaussLegendre leg) (amp : ℝ) (target : ℝ → ℝ → ℝ → ℝ) (ps : List Pair) (N L : ℕ)
    {a : ℝ} (ha : 0 < a) (Ac As : ℕ → ℕ → ℕ → ℝ) (ro co : Option ℕ)
    (h₁ : 4 * L + 2 * N ≤ 2 * ro.getD (max (N + 3 * L / 2 + 1) 20) + 3) (h₂ : 2 * L ≤ 2 * co.getD (max (L + 1) 20) + 1)
    (res : ∀ R z φ, phiME_dens ps target R z φ = (C88Spec.expansion a N L L Ac As).dens R z φ 0) (R z φ t : ℝ) :
    (diskSCF3 leg amp target ps N L a ro co).dens R z φ t = amp * target R z φ := by
  have r' : phiME_dens ps target = fun R z φ => (C88Spec.expansion a N L L Ac As).dens R z φ 0 := by
    funext R z φ; exact res R z φ
  have q : phiME_dens ps target R z φ = target R z φ - (ps.map fun p => p.rho (√(R ^ 2 + z ^ 2)) z).sum := by
    simp only [phiME_dens, foldl_sub (fun p : Pair => p.rho (√(R ^ 2 + z ^ 2)) z)]
  have r2 := q.symm.trans (res R z φ)
  unfold diskSCF3
  simp only [r']
  simp only [Pot.scale, DiskExp.raw, DiskExp.dens, foldl_add (fun p : Pair => p.rho (√(R ^ 2 + z ^ 2)) z)]
  congr 1
  rw [eq_comm, ← sub_eq_iff_eq_add, r2]
  simp only [C88Spec.expansion, Pot.scale, SCF.raw, SCF.dens, SCF.atPoint, SCF.Par.sum, Coords.cyl_to_spher]
  congr 1
  refine Finset.sum_congr rfl fun n hn => Finset.sum_congr rfl fun l hl' => Finset.sum_congr rfl fun m hm => ?_
  rw [Finset.mem_range] at hn hl' hm
  by_cases hml : m ≤ l
  · obtain ⟨c, s⟩ := C88_full_partial hl ha N N L L L Ac As ro co (n := n) (l := l) (m := m) hn (by omega) (by omega)
    rw [if_pos ⟨hn, hl', hm, hml⟩] at c
    simp only [C88Spec.expansion, Pot.scale, SCF.raw, SCF.dens, SCF.atPoint, SCF.Par.sum, Coords.cyl_to_spher, SCF.Par.coef,
      Bool.false_eq_true, if_false] at c s ⊢
    simp only [c, s]
    by_cases h0 : m = 0
    · subst h0; simp
    · rw [if_pos ⟨hn, hl', hm, by omega, hml⟩]
  · simp [SCF.PP, SCF.alp_zero (by omega : l < m)]
/-- A non-axisymmetric target. -/
example : ∃ leg, C88Spec.GaussLegendre leg ∧ ∀ R z φ t,
    (diskSCF3 leg 3 (fun R z φ => (C88Spec.expansion 2 7 4 4 (fun n l m => n + l - m) fun n _ _ => n).dens R z φ 0 + user.rho (√(R ^ 2 + z ^ 2)) z)
      [user] 7 4 2 none none).dens R z φ t
      = 3 * ((C88Spec.expansion 2 7 4 4 (fun n l m => n + l - m) fun n _ _ => n).dens R z φ 0 + user.rho (√(R ^ 2 + z ^ 2)) z) := by
  obtain ⟨leg, h⟩ := C88aux.exists_leg
  refine ⟨leg, h, fun R z φ t => C89_exact3 h 3 _ [user] 7 4 two_pos (fun n l m => n + l - m) (fun n _ _ => n) none none
    (by simp) (by simp) (fun R z φ => ?_) R z φ t⟩
  simp [phiME_dens]

/-- The dictionaries accepted: at least one surface density, one vertical profile or as many as surface densities, all of known type;
one vertical profile is used for all surface densities. -/
theorem C89_parse (Sig : List SigDict) (hz : List HzDict) :
    ((∃ ps, parsePairs Sig hz = .ok ps) ↔ Sig ≠ [] ∧ (hz.length = Sig.length ∨ hz.length = 1)
      ∧ (∀ d ∈ Sig, d.type ∈ [none, some "exp", some "expwhole"]) ∧ ∀ e ∈ hz, e.type ∈ [none, some "exp", some "sech2"])
    ∧ ∀ e, hz = [e] → parsePairs Sig hz = parsePairs Sig (List.replicate Sig.length e) := by
  have sg : ∀ d : SigDict, (∃ s, parseSigma d = .ok s) ↔ d.type ∈ [none, some "exp", some "expwhole"] := by
    intro d
    unfold parseSigma
    rcases hd : d.type with _ | ty
    · cases hh : d.Rhole.isSome <;> simp
    · simp only [Option.getD_some]
      cases hh : d.Rhole.isSome <;> by_cases h1 : ty = "exp" <;> by_cases h2 : ty = "expwhole" <;> simp [h1, h2]
  have hg : ∀ d : HzDict, (∃ s, parseHz d = .ok s) ↔ d.type ∈ [none, some "exp", some "sech2"] := by
    intro d
    unfold parseHz
    rcases hd : d.type with _ | ty
    · simp
    · simp only [Option.getD_some]
      by_cases h1 : ty = "exp" <;> by_cases h2 : ty = "sech2" <;> simp [h1, h2]
  have mk : ∀ {α β : Type} (f : α → Except Err β) (l : List α), (∀ x ∈ l, ∃ y, f x = .ok y) → ∃ r, l.mapM f = .ok r := by
    intro α β f l
    induction l with
    | nil => exact fun _ => ⟨[], by rw [List.mapM_nil]; rfl⟩
    | cons x l ih =>
      intro h
      obtain ⟨y, hy⟩ := h x (by simp)
      obtain ⟨r, hr⟩ := ih fun z hz => h z (by simp [hz])
      exact ⟨y :: r, by rw [List.mapM_cons, hy, hr]; rfl⟩
  refine ⟨⟨?_, ?_⟩, ?_⟩
  · rintro ⟨ps, h⟩
    obtain ⟨h1, h2, ss, hs, f1, f2, -⟩ := parsePairs_ok h
    refine ⟨h1, h2, fun d hd => ?_, fun e he => ?_⟩
    · obtain ⟨s, -, es⟩ := forall2_mem f1.flip hd
      exact (sg d).1 ⟨s, es⟩
    · have : e ∈ storedHz Sig hz := by
        unfold storedHz
        split_ifs with q
        · obtain ⟨x, rfl⟩ := List.length_eq_one_iff.1 q.1
          rw [List.mem_singleton.1 he, List.mem_replicate]
          exact ⟨by omega, rfl⟩
        · exact he
      obtain ⟨s, -, es⟩ := forall2_mem f2.flip this
      exact (hg e).1 ⟨s, es⟩
  · rintro ⟨h1, h2, h3, h4⟩
    obtain ⟨ss, hss⟩ := mk parseSigma Sig fun d hd => (sg d).2 (h3 d hd)
    obtain ⟨hs, hhs⟩ := mk parseHz (storedHz Sig hz) fun e he => (hg e).2 (h4 e (storedHz_mem he))
    unfold parsePairs
    rw [if_neg h1]
    simp only [hss, if_neg (show ¬(hz.length ≠ Sig.length ∧ hz.length ≠ 1) by tauto), hhs]
    exact ⟨_, rfl⟩
  · rintro e rfl
    have e1 : storedHz Sig [e] = storedHz Sig (List.replicate Sig.length e) ∨ Sig = [] := by
      rcases Sig with _ | ⟨d, _ | ⟨d', l⟩⟩
      · exact .inr rfl
      · exact .inl (by simp [storedHz])
      · exact .inl (by simp [storedHz])
    rcases e1 with e1 | rfl
    · unfold parsePairs
      rw [e1]
      by_cases h1 : Sig = []
      · simp [h1]
      · have a1 : ¬(([e] : List HzDict).length ≠ Sig.length ∧ ([e] : List HzDict).length ≠ 1) := by simp
        have a2 : ¬((List.replicate Sig.length e).length ≠ Sig.length ∧ (List.replicate Sig.length e).length ≠ 1) := by simp
        simp only [if_neg a1, if_neg a2]
    · rfl
example : (∃ ps, parsePairs sig hzs = .ok ps) ∧ ¬ ∃ ps, parsePairs sig (hzs ++ hzs ++ hzs) = .ok ps :=
  ⟨(C89_parse _ _).1.2 (by simp [sig, hzs]), fun h => by have := (C89_parse _ _).1.1 h; simp [sig, hzs] at this⟩

/-- The order in which the pairs are listed does not matter. -/
theorem C89_order (me : Pot) {ps qs : List Pair} (h : ps.Perm qs) : DiskExp.raw me ps = DiskExp.raw me qs := by
  have a : ∀ (f : Pair → ℝ) (x : ℝ), ps.foldl (fun out p => out + f p) x = qs.foldl (fun out p => out + f p) x := fun f x => by
    rw [foldl_add, foldl_add, (h.map f).sum_eq]
  have b : ∀ (f : Pair → ℝ) (x : ℝ), ps.foldl (fun out p => out - f p) x = qs.foldl (fun out p => out - f p) x := fun f x => by
    rw [foldl_sub, foldl_sub, (h.map f).sum_eq]
  unfold DiskExp.raw
  congr 1 <;> funext R z φ t
  · exact a (fun p => 4 * π * p.a * p.s (√(R ^ 2 + z ^ 2)) * p.H z) _
  · exact b (fun p => 4 * π * p.a * p.ds (√(R ^ 2 + z ^ 2)) * p.H z * R / √(R ^ 2 + z ^ 2)) _
  · exact b (fun p => 4 * π * p.a * (p.ds (√(R ^ 2 + z ^ 2)) * p.H z * z / √(R ^ 2 + z ^ 2) + p.s (√(R ^ 2 + z ^ 2)) * p.dH z)) _
  · exact a (fun p => 4 * π * p.a * p.H z / √(R ^ 2 + z ^ 2) ^ 2 * (p.d2s (√(R ^ 2 + z ^ 2)) * R ^ 2 + z ^ 2 / √(R ^ 2 + z ^ 2) * p.ds (√(R ^ 2 + z ^ 2)))) _
  · exact a (fun p => 4 * π * p.a * (p.H z / √(R ^ 2 + z ^ 2) ^ 2 * (p.d2s (√(R ^ 2 + z ^ 2)) * z ^ 2 + p.ds (√(R ^ 2 + z ^ 2)) * R ^ 2 / √(R ^ 2 + z ^ 2))
      + 2 * p.ds (√(R ^ 2 + z ^ 2)) * p.dH z * z / √(R ^ 2 + z ^ 2) + p.s (√(R ^ 2 + z ^ 2)) * p.h z)) _
  · exact a (fun p => 4 * π * p.a * (p.H z * R * z / √(R ^ 2 + z ^ 2) ^ 2 * (p.d2s (√(R ^ 2 + z ^ 2)) - p.ds (√(R ^ 2 + z ^ 2)) / √(R ^ 2 + z ^ 2)) + p.ds (√(R ^ 2 + z ^ 2)) * p.dH z * R / √(R ^ 2 + z ^ 2))) _
  · exact a (fun p => p.rho (√(R ^ 2 + z ^ 2)) z) _
example (me : Pot) (p q r : Pair) : DiskExp.raw me [p, q, r] = DiskExp.raw me [r, q, p] := C89_order me (List.reverse_perm [p, q, r]).symm

end Verif
