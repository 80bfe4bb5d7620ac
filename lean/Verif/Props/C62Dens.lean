import Verif.Props.C62Forms
import Verif.Props.C01
import Verif.Props.C02
import Verif.Props.C03

set_option autoImplicit false

/-!
# C62: the density by both routes

`dens` returns the amplitude times `_dens`, or with `forcepoisson=True` (and for classes without `_dens`) the Laplacian
of the potential from its second derivatives.
-/

noncomputable section
namespace Verif
open Real MassQuant

namespace C62aux

/-- What a potential is at a point: consistent derivatives, and `_dens`, if there is one, solves Poisson's equation with
the amplitude of the object. -/
structure DensOK (o : Obj) (R z φ t : ℝ) : Prop where
  grad : GradAt o.pot R z φ t
  hess : HessAt o.pot R z φ t
  poisson : PoissonAt o.pot R z φ t
  amp : ∀ d, o.dens = some d → o.pot.dens R z φ t = o.amp * d R z φ t

theorem poissonDens {P : Pot} {R z φ t : ℝ} (g : GradAt P R z φ t) (h : HessAt P R z φ t) (p : PoissonAt P R z φ t) :
    MassQuant.poissonDens P R z φ t = P.dens R z φ t := by
  have k := (poissonAt_iff g h).1 p
  unfold PoissonAlg at k
  unfold MassQuant.poissonDens
  have := pi_ne_zero
  rw [div_div, div_eq_iff (by positivity)]
  linear_combination -k

theorem dens_eq {o : Obj} {R z φ t : ℝ} (h : DensOK o R z φ t) (fp : Bool) : densOf o R z φ t fp = o.pot.dens R z φ t := by
  cases fp with
  | true =>
    have e : densOf o R z φ t true = MassQuant.poissonDens o.pot R z φ t := rfl
    rw [e, poissonDens h.grad h.hess h.poisson]
  | false =>
    rcases hd : o.dens with _ | d
    · have e : densOf o R z φ t false = MassQuant.poissonDens o.pot R z φ t := by simp [densOf, hd]
      rw [e, poissonDens h.grad h.hess h.poisson]
    · rw [h.amp d hd]
      simp [densOf, hd]

/-- A Plummer sphere of amplitude `A` as an object. -/
def plummerObj (A b : ℝ) : Obj where
  pot := (Plummer.pot b).scale A
  isNonAxi := false
  isEllipsoidal := false
  amp := A
  dens := some fun R z φ t => (Plummer.pot b).dens R z φ t
  surfdens := none
  mass := none
theorem plummerObj_ok : DensOK (plummerObj 3 1) 1 1 0 0 :=
  ⟨C01_Plummer 3 1 1 1 0 0 (by norm_num), C02_Plummer 3 1 1 1 0 0 (by norm_num),
    C03_Plummer 3 1 1 1 0 0 (by norm_num) (by norm_num), fun d h => by
      simp only [plummerObj, Option.some.injEq] at h
      subst h
      rfl⟩

end C62aux
open C62aux

/-- Whichever route it takes, `dens` is the Laplacian of the potential over `4π`; in particular the routes agree. -/
theorem C62_dens {o : Obj} {R z φ t : ℝ} (h : DensOK o R z φ t) (fp : Bool) :
    PoissonAt { o.pot with dens := fun R z φ t => densOf o R z φ t fp } R z φ t
    ∧ densOf o R z φ t false = densOf o R z φ t true := by
  refine ⟨?_, by rw [dens_eq h, dens_eq h]⟩
  have k := h.poisson
  unfold PoissonAt at k ⊢
  simp only [dens_eq h]
  exact k
example : densOf (plummerObj 3 1) 1 1 0 0 false = densOf (plummerObj 3 1) 1 1 0 0 true := (C62_dens plummerObj_ok true).2

/-- The density of a combination is the sum of the densities of its members, by both routes, whichever route each member
would take. -/
theorem C62_dens_composite {l : List Obj} {R z φ t : ℝ} (h : ∀ o ∈ l, DensOK o R z φ t) (fp fm : Bool) :
    densOf (composite l) R z φ t fp = (l.map fun o => densOf o R z φ t fm).sum := by
  have e1 : ∀ b : Bool, (l.map fun o => densOf o R z φ t b).sum = (l.map fun o => o.pot.dens R z φ t).sum := fun b =>
    congrArg List.sum (List.map_congr_left fun o ho => dens_eq (h o ho) b)
  rw [e1 fm]
  cases fp with
  | false =>
    rw [← e1 false]
    simp [densOf, composite]
  | true =>
    rw [← e1 true]
    have e : densOf (composite l) R z φ t true = MassQuant.poissonDens (sumPot l) R z φ t := rfl
    rw [e]
    have e2 : ∀ o : Obj, densOf o R z φ t true = MassQuant.poissonDens o.pot R z φ t := fun _ => rfl
    simp only [e2, MassQuant.poissonDens, sumPot]
    clear h e e1 e2
    induction l with
    | nil => simp
    | cons o l ih =>
      simp only [List.map_cons, List.sum_cons]
      rw [← ih]
      ring
example : densOf (composite [plummerObj 3 1, plummerObj 3 1]) 1 1 0 0 true
    = densOf (plummerObj 3 1) 1 1 0 0 false + densOf (plummerObj 3 1) 1 1 0 0 false := by
  rw [C62_dens_composite (l := [plummerObj 3 1, plummerObj 3 1]) (fm := false) (by
    intro o ho
    simp only [List.mem_cons, List.not_mem_nil, or_false, or_self] at ho
    rw [ho]
    exact plummerObj_ok)]
  simp

end Verif
