import Verif.Lemmas.Pot.SCFC
import Verif.Props.C01SCF

set_option autoImplicit false

/-! # SCFPotential: the C functions -/

noncomputable section
open Real

namespace Verif
open SCF C01SCFaux

/-- The objects of a class for which the C functions are considered: what the constructor guarantees and, for a time-dependent
potential, splines given by their coefficients. -/
structure C51SCFaux.Ok (p : Par) (ax : Bool) (s : Spl) : Prop where
  a : 0 < p.a
  built : Built p ax
  spl : p.tdep = true → s.Is p
open C51SCFaux

/-- Every static potential the constructor accepts is one of them. -/
theorem C51_SCF_built {a : ℝ} (ha : 0 < a) {N L M : ℕ} {Ac : ℕ → ℕ → ℕ → ℝ} {As : Option (ℕ → ℕ → ℕ → ℝ)} {sh : Bool} {p : Par}
    {ax : Bool} (h : construct a N L M Ac As sh = .ok (p, ax)) (s : Spl) :
    Ok p ax s ∧ p.Ac = Ac ∧ (p.N, p.L, p.M) = (N, L, M) := by
  obtain ⟨b, ht⟩ := construct_built h
  have e : p.a = a ∧ p.Ac = Ac ∧ (p.N, p.L, p.M) = (N, L, M) := by
    unfold construct at h
    simp only [] at h
    split_ifs at h <;> (simp only [Except.ok.injEq, Prod.mk.injEq] at h; obtain ⟨rfl, _⟩ := h; exact ⟨rfl, rfl, rfl⟩)
  exact ⟨⟨e.1 ▸ ha, b, fun k => absurd k (by simp [ht])⟩, e.2⟩
/-- A triaxial expansion accepted by the constructor. -/
example : ∃ p, construct 2 1 2 2 (fun _ l m => if m ≤ l then 1 else 0) (some fun _ l m => if m ≤ l then 3 else 0) true = .ok (p, true) := by
  unfold construct
  have e : ¬((∃ n < 1, ∃ l < 2, ∃ m < 2, l < m ∧ (if m ≤ l then (1 : ℝ) else 0) ≠ 0)
      ∨ ∃ f ∈ some (fun _ l m => if m ≤ l then (3 : ℝ) else 0), ∃ n < 1, ∃ l < 2, ∃ m < 2, l < m ∧ f n l m ≠ 0) := by
    rintro (⟨n, _, l, _, m, _, h, k⟩ | ⟨f, hf, n, _, l, _, m, _, h, k⟩)
    · exact k (if_neg (by omega))
    · simp only [Option.mem_def, Option.some.injEq] at hf
      subst hf
      exact k (if_neg (by omega))
  simp only [Option.isSome_some, ne_eq, not_true_eq_false, and_false, if_false, Bool.true_eq_false, false_and, if_neg e]
  simp
  exact Or.inr ⟨0, by norm_num, 0, by norm_num, le_rfl⟩

/-- SCF, C functions: potential, density and forces are those of Python, the second derivatives too where Python does not treat the
point as lying on the axis; the planar functions are those in the plane. -/
theorem C51_SCF (amp : ℝ) {p : Par} {ax : Bool} {s : Spl} (o : Ok p ax s) {R : ℝ} (hR : 0 < R) (z φ t : ℝ) :
    let c := fun f z => (callC (parse p ax (amp / 2) s) .init f R z φ t).2
    let P := (raw p).scale (amp / 2)
    c .eval z = P.val R z φ t ∧ c .dens z = P.dens R z φ t
    ∧ c .Rforce z = P.Rforce R z φ t ∧ c .zforce z = P.zforce R z φ t ∧ c .phitorque z = P.phitorque R z φ t
    ∧ (p.M ≤ 1 ∨ 1e-14 ≤ R ^ 2 / (R ^ 2 + z ^ 2) →
      c .R2deriv z = P.R2deriv R z φ t ∧ c .z2deriv z = P.z2deriv R z φ t ∧ c .Rzderiv z = P.Rzderiv R z φ t
      ∧ c .phi2deriv z = P.phi2deriv R z φ t ∧ c .Rphideriv z = P.Rphideriv R z φ t ∧ c .zphideriv z = P.phizderiv R z φ t)
    ∧ c .planarRforce z = P.Rforce R 0 φ t ∧ c .planarphitorque z = P.phitorque R 0 φ t
    ∧ c .planarR2deriv z = P.R2deriv R 0 φ t ∧ c .planarphi2deriv z = P.phi2deriv R 0 φ t
    ∧ c .planarRphideriv z = P.Rphideriv R 0 φ t := by
  have b := o.built
  have hs := o.spl
  have ha := o.a
  have f := force_eq (z := z) b hs (amp / 2) φ t ha hR
  have f0 := force_eq (z := 0) b hs (amp / 2) φ t ha hR
  have h := hessC_eq (z := z) b hs (amp / 2) φ t ha hR
  have dd := derivsC_eq b hs (amp / 2) φ t ha hR
  have off0 : OffPole p R 0 := by
    refine Or.inr ?_
    have : R ^ 2 / (R ^ 2 + 0 ^ 2) = 1 := by
      rw [show R ^ 2 + 0 ^ 2 = R ^ 2 by ring]
      exact div_self (by positivity)
    rw [this]
    norm_num
  have q0 := hess_eq ha hR off0 φ t
  refine ⟨?_, ?_, ?_, ?_, ?_, fun off => ?_, ?_, ?_, ?_, ?_, ?_⟩
  · exact (evalC_eq b hs (amp / 2) φ t ha hR).trans (by simp only [Pot.scale]; rw [val_eq ha hR])
  · exact (densC_eq b hs (amp / 2) φ t ha hR).trans (by simp only [Pot.scale]; rw [dens_eq ha hR])
  · exact f.1.trans (by simp only [Pot.scale]; rw [Rforce_eq ha hR])
  · exact f.2.1.trans (by simp only [Pot.scale]; rw [zforce_eq ha hR])
  · exact f.2.2.trans (by simp only [Pot.scale]; rw [phitorque_eq ha hR])
  · obtain ⟨q1, q2, q3, q4, q5, q6⟩ := hess_eq ha hR off φ t
    simp only [Pot.scale, q1, q2, q3, q4, q5, q6]
    exact h
  · exact f0.1.trans (by simp only [Pot.scale]; rw [Rforce_eq ha hR])
  · exact f0.2.2.trans (by simp only [Pot.scale]; rw [phitorque_eq ha hR])
  · exact dd.1.trans (by simp only [Pot.scale]; rw [q0.1])
  · exact dd.2.1.trans (by simp only [Pot.scale]; rw [q0.2.2.2.1])
  · exact dd.2.2.trans (by simp only [Pot.scale]; rw [q0.2.2.2.2.1])

/-- The C functions by themselves: forces are the gradient, second derivatives the Hessian and the density satisfies Poisson's
equation everywhere off the axis, also where the second derivatives in Python are those of another direction. -/
theorem C02_SCF_C (amp : ℝ) {p : Par} {ax : Bool} {s : Spl} (o : Ok p ax s) {R : ℝ} (hR : 0 < R) (z φ t : ℝ) :
    let c := fun f R z φ t => (callC (parse p ax (amp / 2) s) .init f R z φ t).2
    let P : Pot := ⟨c .eval, c .Rforce, c .zforce, c .phitorque, c .R2deriv, c .z2deriv, c .Rzderiv, c .phi2deriv, c .Rphideriv,
      c .zphideriv, c .dens⟩
    GradAt P R z φ t ∧ HessAt P R z φ t ∧ PoissonAt P R z φ t := by
  have h := cPot_consistent o.built o.spl (amp / 2) o.a
  exact ⟨h.grad R z φ t hR, h.hess R z φ t hR, h.poisson R z φ t hR hR.ne'⟩

/-- Whatever C functions were called before with the same arguments, each call returns what it returns with fresh ones. -/
theorem C71_SCF_C (d : CArgs) (l : List (CFun × ℝ × ℝ × ℝ × ℝ)) :
    runC d .init l = l.map fun c => (callC d .init c.1 c.2.1 c.2.2.1 c.2.2.2.1 c.2.2.2.2).2 := runC_eq l trivial
example (d : CArgs) : runC d .init [(.Rforce, 1, 0, 0, 0), (.planarR2deriv, 1, 0, 0, 0), (.zphideriv, 1, 0, 0, 0), (.Rforce, 1, 0, 0, 0)]
    = [(callC d .init .Rforce 1 0 0 0).2, (callC d .init .planarR2deriv 1 0 0 0).2, (callC d .init .zphideriv 1 0 0 0).2,
      (callC d .init .Rforce 1 0 0 0).2] := C71_SCF_C d _

/-- The time interval found by the C code for a strictly increasing grid contains the time, or is the first or the last one for
times outside of the grid. -/
theorem C51_SCF_interval {tgrid : ℕ → ℝ} {Nt : ℕ} (h2 : 2 ≤ Nt) (hm : ∀ i j, i < j → j < Nt → tgrid i < tgrid j) (t : ℝ) :
    ∃ i, findInterval tgrid Nt t = i ∧ i + 1 < Nt ∧ (t < tgrid 0 → i = 0) ∧ (tgrid (Nt - 1) ≤ t → i + 2 = Nt)
      ∧ (tgrid 0 ≤ t → tgrid i ≤ t) ∧ (t < tgrid (Nt - 1) → t < tgrid (i + 1)) := by
  obtain ⟨h, h1, h3⟩ := findInterval_spec h2 hm t
  refine ⟨_, rfl, by omega, fun k => ?_, fun k => ?_, fun k => ?_, fun k => ?_⟩
  · unfold findInterval
    rw [if_pos k.le]
  · have : ¬ t ≤ tgrid 0 := not_le.2 ((hm 0 (Nt - 1) (by omega) (by omega)).trans_le k)
    unfold findInterval
    rw [if_neg this, if_pos k]
    omega
  · rcases h1 with h1 | h1
    · rw [h1]
      exact k
    · exact h1
  · rcases h3 with h3 | h3
    · rw [h3, show Nt - 2 + 1 = Nt - 1 by omega]
      exact k
    · exact h3
example : findInterval (fun i => (i : ℝ)) 5 2 = 2 := by
  obtain ⟨i, e, hi, -, -, h1, h2⟩ := C51_SCF_interval (tgrid := fun i => (i : ℝ)) (Nt := 5) (by norm_num)
    (fun i j h _ => by exact_mod_cast h) 2
  have h1 := h1 (by norm_num)
  have h2 := h2 (by norm_num)
  rw [e]
  have a : i ≤ 2 := by exact_mod_cast h1
  have b : 2 < i + 1 := by exact_mod_cast h2
  omega

/-- The positions of the Legendre functions in the arrays of both versions of GSL are inside and differ. -/
theorem C51_SCF_layout (gsl2 : Bool) {l m l' m' L : ℕ} (hm : m ≤ l) (hl : l < L) (hm' : m' ≤ l') (hl' : l' < L) :
    legIndex gsl2 l m L < L * (L + 1) / 2
    ∧ (legIndex gsl2 l m L = legIndex gsl2 l' m' L → l = l' ∧ m = m') :=
  ⟨legIndex_lt hm hl, legIndex_inj hm hl hm' hl'⟩
example : legIndex false 3 2 5 = 10 ∧ legIndex true 3 2 5 = 8 := by decide

/-- The hypotheses of the theorems above hold for a triaxial expansion and for one that depends on time. -/
example (s : Spl) : Ok (⟨2, 1, 2, 2, false, fun _ _ _ => 1, fun _ _ _ => 3, fun _ _ _ _ => 0, fun _ _ _ _ => 0⟩ : Par) true s :=
  ⟨by norm_num, ⟨fun _ => rfl, by simp, by simp⟩, by simp⟩
example : Ok (⟨2, 1, 1, 1, true, fun _ _ _ => 0, fun _ _ _ => 0, fun t _ _ _ => t ^ 3, fun _ _ _ _ => 0⟩ : Par) false
    ⟨2, fun i => i, fun k _ _ => if k = 0 then 1 else 0, fun _ _ _ => 0⟩ := by
  refine ⟨by norm_num, ⟨by simp, fun _ => Or.inr one_pos, fun _ t n l m _ _ hm h0 => ?_⟩, fun _ => ⟨le_rfl, ?_, ?_, ?_⟩⟩
  · change m < 1 at hm
    omega
  · intro i j h _
    simp only
    exact_mod_cast h
  · rintro t i n l m ⟨hi, -⟩ - - -
    have : i = 0 := by
      change i ≤ 2 - 2 at hi
      omega
    subst this
    simp [Finset.sum_range_succ]
  · intros
    simp

end Verif
