import Verif.Lemmas.Pot.SpiralArmsSum
import Verif.Model.Pot.Ops

set_option autoImplicit false

/-!
# C79: evaluating at arrays of positions is elementwise

For SpiralArmsPotential, whose methods sum over an axis of their own: arrays of `R`, `z` and azimuth, in any combination with
numbers.  (The array branch of DehnenBarPotential is in `C54_DehnenBar_array` and `C54_DehnenBar_array_axis_fails`.)
-/

noncomputable section
namespace Verif
open Real SpiralArms

namespace C79Spec
/-- The values at `m` positions, a number or an array of length 1 standing for `m` equal entries. -/
def values (f : ℝ → ℝ → ℝ → ℝ) (R z φ : Arg) (m : ℕ) : List ℝ := (List.range m).map fun j => f (R.at j) (z.at j) (φ.at j)
/-- The argument is a number, or an array of length 1 or `m`. -/
def fits (a : Arg) (m : ℕ) : Prop := a.len = 1 ∨ a.len = m
end C79Spec

namespace C79aux
theorem fold {m : ℕ} {l : List ℕ} (h : ∀ k ∈ l, k = 1 ∨ k = m) (hm : m = 1 ∨ m ∈ l) :
    l.foldl (fun m k => if m = 1 then k else m) 1 = m := by
  have key : ∀ (l : List ℕ), (∀ k ∈ l, k = 1 ∨ k = m) → ∀ s, (s = m ∨ s = 1) → (s = m ∨ m ∈ l) →
      l.foldl (fun m k => if m = 1 then k else m) s = m := by
    intro l
    induction l with
    | nil =>
      intro _ s _ h
      simpa using h
    | cons a l ih =>
      intro hl s hs hm
      rw [List.foldl_cons]
      have ha := hl a (List.mem_cons_self ..)
      have hl' : ∀ k ∈ l, k = 1 ∨ k = m := fun k hk => hl k (List.mem_cons_of_mem _ hk)
      by_cases h1 : s = 1
      · rw [if_pos h1]
        refine ih hl' a ha.symm ?_
        rcases hm with e | e
        · rcases ha with e' | e'
          · exact Or.inl (e'.trans (h1.symm.trans e))
          · exact Or.inl e'
        · rcases List.mem_cons.1 e with e | e
          · exact Or.inl e.symm
          · exact Or.inr e
      · rw [if_neg h1]
        rcases hs with e | e
        · exact ih hl' s (Or.inl e) (Or.inl e)
        · exact absurd e h1
  exact key l h 1 (Or.inr rfl) (hm.imp Eq.symm id)
end C79aux

/-- If `R` or `z` is an array, the value is the array of the values at the positions; if all are numbers it is the value.
The full statement is refuted by `C79_SpiralArms_fails`: it excludes arrays of azimuths at a single `R` and `z`. -/
theorem C79_SpiralArms_partial (p : Par) (t : ℝ) :
    (∀ R z φ : ℝ, evaluateArr p (.num R) (.num z) (.num φ) t = .num ((pot p).val R z φ t)) ∧
    ∀ (R z φ : Arg) (m : ℕ), (R.isVec ∨ z.isVec) → C79Spec.fits R m → C79Spec.fits z m → C79Spec.fits φ m →
      (m = 1 ∨ R.len = m ∨ z.len = m ∨ φ.len = m) →
      evaluateArr p R z φ t = .vec (C79Spec.values (fun R z φ => (pot p).val R z φ t) R z φ m) := by
  refine ⟨fun R z φ => rfl, fun R z φ m hv hR hz hφ hm => ?_⟩
  have hn : (if R.isVec = true then R.len else z.len) = 1 ∨ (if R.isVec = true then R.len else z.len) = m := by
    split_ifs
    · exact hR
    · exact hz
  have hall : ∀ k ∈ [if R.isVec = true then R.len else z.len, R.len, z.len, φ.len], k = 1 ∨ k = m := by
    simp only [List.mem_cons, List.not_mem_nil, or_false]
    rintro k (rfl | rfl | rfl | rfl)
    · exact hn
    · exact hR
    · exact hz
    · exact hφ
  have hf := C79aux.fold hall (hm.imp id fun h => by
    simp only [List.mem_cons, List.not_mem_nil, or_false]
    rcases h with e | e | e
    · exact Or.inr (Or.inl e.symm)
    · exact Or.inr (Or.inr (Or.inl e.symm))
    · exact Or.inr (Or.inr (Or.inr e.symm)))
  unfold evaluateArr
  rw [if_pos (by simpa using hv)]
  dsimp only
  rw [hf, if_pos (by simpa [List.all_eq_true] using hall)]
  rfl
example : evaluateArr (SpiralArms.init 2 1 1 0 1 (1 / 4) 3 [1, 2]) (.vec [1, 2]) (.num 0) (.vec [0, 1]) 0
    = .vec [(pot (SpiralArms.init 2 1 1 0 1 (1 / 4) 3 [1, 2])).val 1 0 0 0,
        (pot (SpiralArms.init 2 1 1 0 1 (1 / 4) 3 [1, 2])).val 2 0 1 0] :=
  (C79_SpiralArms_partial _ 0).2 (.vec [1, 2]) (.num 0) (.vec [0, 1]) 2 (Or.inl rfl) (Or.inr rfl) (Or.inl rfl) (Or.inr rfl)
    (Or.inr (Or.inl rfl))

/-- At a single `R` and `z` an array of azimuths never gives the array of values: with one harmonic (the default) the result
is silently one number, the sum of the values over all the azimuths, and with more harmonics it is one number or an error. -/
theorem C79_SpiralArms_fails (p : Par) (R z t : ℝ) (φs : List ℝ) :
    evaluateArr p (.num R) (.num z) (.vec φs) t
      ≠ .vec (C79Spec.values (fun R z φ => (pot p).val R z φ t) (.num R) (.num z) (.vec φs) φs.length) ∧
    (p.Cs.length = 1 →
      evaluateArr p (.num R) (.num z) (.vec φs) t = .num (φs.map fun φ => (pot p).val R z φ t).sum) := by
  refine ⟨?_, fun h1 => ?_⟩
  · simp only [evaluateArr, Arg.isVec, Bool.or_self, Bool.false_eq_true, if_false]
    split_ifs <;> simp
  · obtain ⟨C, hC⟩ := List.length_eq_one_iff.1 h1
    rcases p with ⟨N, al, r, ph, Rs, H, om, Cs⟩
    simp only at hC
    subst hC
    simp only [evaluateArr, Arg.isVec, Bool.or_self, Bool.false_eq_true, if_false, List.length_singleton, if_true, or_true,
      Arg.at, pot, evaluate, total, Finset.univ_unique, Fin.default_eq_zero, Finset.sum_singleton, List.getD_cons_zero,
      List.get_cons_zero]
    congr 1
    rw [← List.sum_map_mul_left]
    congr 1
    refine List.ext_getElem (by simp) fun j h1 h2 => ?_
    simp only [List.length_map, List.length_range] at h1 h2
    simp only [List.getElem_map, List.getElem_range]
    have e : (if φs.length = 1 then φs.getD 0 0 else φs.getD j 0) = φs[j] := by
      split_ifs with h
      · have : j = 0 := by omega
        subst this
        simp [List.getD, h2]
      · simp [List.getD, h2]
    rw [e]
    simp
example : evaluateArr (SpiralArms.init 2 1 1 0 1 (1 / 4) 3 [1]) (.num 1) (.num 0) (.vec [0, 1, 2]) 0
    = .num ([0, 1, 2].map fun φ => (pot (SpiralArms.init 2 1 1 0 1 (1 / 4) 3 [1])).val 1 0 φ 0).sum :=
  (C79_SpiralArms_fails _ 1 0 0 [0, 1, 2]).2 rfl

end Verif
