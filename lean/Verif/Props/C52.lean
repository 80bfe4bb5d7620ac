import Verif.Model.Reduce
import Verif.Lemmas.Pot.Plummer
import Verif.Spec.Dynamics
import Mathlib.Analysis.Calculus.Deriv.Prod
import Mathlib.Tactic.NormNum

set_option autoImplicit false

/-!
# C52: reduction to planar and vertical potentials
-/

namespace Verif
open Reduce

namespace C52Spec

/-- Value of a 3D thing: of a potential its value, of a combination the sum over its potentials. -/
noncomputable def val (x : Thing) (R z φ t : ℝ) : ℝ :=
  let one : Member → ℝ := fun m => match m with
    | .pot P _ => P.val R z φ t
    | .diss _ => 0
  match x with
  | .single m => one m
  | .comp ms => (ms.map one).sum
  | _ => 0

/-- The force field of one member of a 3D thing. -/
def memberForce : Member → Force
  | .pot P _ => P.force
  | .diss F => F

/-- The total force field of a 3D thing. -/
noncomputable def force : Thing → Force
  | .single m => memberForce m
  | .comp ms =>
    ⟨fun R z φ t v => (ms.map fun m => (memberForce m).R R z φ t v).sum,
     fun R z φ t v => (ms.map fun m => (memberForce m).phi R z φ t v).sum,
     fun R z φ t v => (ms.map fun m => (memberForce m).z R z φ t v).sum⟩
  | _ => ⟨fun _ _ _ _ _ => 0, fun _ _ _ _ _ => 0, fun _ _ _ _ _ => 0⟩

/-- The members of a 3D thing. -/
def members : Thing → List Member
  | .single m => [m]
  | .comp ms => ms
  | _ => []

/-- A thing that is three-dimensional. -/
def Is3D : Thing → Prop
  | .single _ => True
  | .comp _ => True
  | _ => False

/-- The `isNonAxi` attribute tells the truth: members not marked non-axisymmetric have methods that
do not depend on the azimuth and no torque. -/
def Truthful (x : Thing) : Prop :=
  ∀ P, .pot P false ∈ members x → ∀ R z φ t, P.val R z φ t = P.val R z 0 t ∧
    P.Rforce R z φ t = P.Rforce R z 0 t ∧ P.phitorque R z φ t = 0

/-- Every member is a potential, and is marked axisymmetric if `axi` is set. -/
def AllPot (axi : Prop) (x : Thing) : Prop :=
  ∀ m ∈ members x, ∃ P na, m = .pot P na ∧ (axi → na = false)

end C52Spec

open C52Spec

/-- The methods of the planar version of a potential are the derivatives of its value in the plane
whenever the methods of the 3D potential are. -/
theorem C52_planar_derivatives (P : Pot) (R φ t : ℝ) :
    (GradAt P R 0 φ t → PGradAt (ofFull P) R φ t) ∧ (HessAt P R 0 φ t → PHessAt (ofFull P) R φ t) :=
  ⟨fun h => ⟨h.dR, h.dphi⟩, fun h => ⟨h.RR, h.Rp, h.pR, h.pp⟩⟩
example : PGradAt (ofFull (Plummer.pot 1)) 1 0 0 :=
  (C52_planar_derivatives _ 1 0 0).1 ((Plummer.consistent 1).grad 1 0 0 0 (by norm_num))

/-- The version for axisymmetric potentials (which never passes the azimuth): if the value of the 3D
potential does not depend on the azimuth, then its methods are the derivatives of the value in the
plane, at every azimuth, and agree with the methods of the 3D potential there. -/
theorem C52_planar_derivatives_axi (P : Pot) (R φ t : ℝ)
    (ha : ∀ R z φ t, P.val R z φ t = P.val R z 0 t) (h₀ : GradAt P R 0 0 t) :
    PGradAt (ofRZ P) R φ t ∧ (HessAt P R 0 0 t → PHessAt (ofRZ P) R φ t) ∧
    (ofRZ P).val R φ t = P.val R 0 φ t ∧
    (GradAt P R 0 φ t → (ofRZ P).Rforce R φ t = P.Rforce R 0 φ t ∧
      (ofRZ P).phitorque R φ t = P.phitorque R 0 φ t) ∧
    (HessAt P R 0 0 t → HessAt P R 0 φ t → (ofRZ P).R2deriv R φ t = P.R2deriv R 0 φ t ∧
      (ofRZ P).phi2deriv R φ t = P.phi2deriv R 0 φ t ∧
      (ofRZ P).Rphideriv R φ t = P.Rphideriv R 0 φ t) := by
  have e1 : ∀ z, (fun x => P.val R z x t) = fun _ => P.val R z 0 t := fun z =>
    funext fun x => ha R z x t
  have hz : ∀ x, deriv (fun y => P.val x 0 y t) φ = 0 := fun x => by
    rw [show (fun y => P.val x 0 y t) = fun _ => P.val x 0 0 t from funext fun y => ha x 0 y t]
    exact deriv_const _ _
  refine ⟨⟨h₀.dR, ?_⟩, fun hh => ⟨hh.RR, ?_, ?_, ?_⟩, (ha R 0 φ t).symm, fun h => ⟨?_, ?_⟩,
    fun hh h => ⟨?_, ?_, ?_⟩⟩
  · simpa [ofRZ] using hasDerivAt_const φ (P.val R 0 0 t)
  · simpa [ofRZ] using hasDerivAt_const φ (deriv (fun y => P.val y 0 0 t) R)
  · simpa [ofRZ] using hasDerivAt_const R (0 : ℝ)
  · simpa [ofRZ] using hasDerivAt_const φ (0 : ℝ)
  · have e : (fun x => P.val x 0 φ t) = fun x => P.val x 0 0 t := funext fun x => ha x 0 φ t
    have := h.dR
    rw [e] at this
    exact neg_injective (h₀.dR.unique this)
  · have := h.dphi
    rw [e1 0] at this
    have := (hasDerivAt_const φ (P.val R 0 0 t)).unique this
    show 0 = P.phitorque R 0 φ t
    linarith
  · have e : (fun x => deriv (fun y => P.val y 0 φ t) x) = fun x => deriv (fun y => P.val y 0 0 t) x :=
      funext fun x => by
        rw [show (fun y => P.val y 0 φ t) = fun y => P.val y 0 0 t from funext fun y => ha y 0 φ t]
    have := h.RR
    rw [e] at this
    exact hh.RR.unique this
  · have e : (fun x => deriv (fun y => P.val R 0 y t) x) = fun _ => 0 := by
      rw [e1 0]
      exact funext fun x => deriv_const _ _
    have := h.pp
    rw [e] at this
    exact (hasDerivAt_const φ (0 : ℝ)).unique this
  · have := h.pR
    simp only [hz] at this
    exact (hasDerivAt_const R (0 : ℝ)).unique this
example : PGradAt (ofRZ (Plummer.pot 1)) 1 2 0 :=
  (C52_planar_derivatives_axi _ 1 2 0 (fun _ _ _ _ => rfl)
    ((Plummer.consistent 1).grad 1 0 0 0 (by norm_num))).1

/-- `toPlanarPotential` of any 3D potential, force or combination succeeds and gives the value and
the radial force and torque of the 3D object at `z = 0` (and, for velocity-dependent forces,
`v_z = 0`), total over the members. -/
theorem C52_toPlanar (x : Thing) (h3 : Is3D x) (hx : Truthful x) :
    ∃ p, toPlanar x = .ok p ∧ ∀ R φ t,
      p.conservative.val R φ t = C52Spec.val x R 0 φ t ∧
      ∀ v, p.force R φ t v
        = ((C52Spec.force x).R R 0 φ t ![v.1, v.2, 0], (C52Spec.force x).phi R 0 φ t ![v.1, v.2, 0]) := by
  have one : ∀ m, (∀ P, m = .pot P false → ∀ R z φ t, P.val R z φ t = P.val R z 0 t ∧
      P.Rforce R z φ t = P.Rforce R z 0 t ∧ P.phitorque R z φ t = 0) → ∀ R φ t v,
      (planarMember m).force R φ t v
        = ((memberForce m).R R 0 φ t ![v.1, v.2, 0], (memberForce m).phi R 0 φ t ![v.1, v.2, 0]) := by
    intro m hm R φ t v
    rcases m with ⟨P, _ | _⟩ | F
    · have := hm P rfl R 0 φ t
      simp only [planarMember, PMember.force, ofRZ, memberForce, Pot.force, this.2.1, this.2.2]
    · rfl
    · rfl
  cases x with
  | single m =>
    refine ⟨_, rfl, fun R φ t => ⟨?_, fun v => one m (fun P hP => hx P (by simp [members, hP])) R φ t v⟩⟩
    rcases m with ⟨P, _ | _⟩ | F
    · exact ((hx P (by simp [members]) R 0 φ t).1).symm
    · rfl
    · rfl
  | comp ms =>
    refine ⟨_, rfl, fun R φ t => ⟨?_, fun v => ?_⟩⟩
    · simp only [Planar.conservative, sumP, C52Spec.val]
      have hx' : ∀ P, .pot P false ∈ ms → P.val R 0 φ t = P.val R 0 0 t := fun P hP =>
        (hx P hP R 0 φ t).1
      clear hx h3
      induction ms with
      | nil => rfl
      | cons m ms ih =>
        have ih := ih fun P hP => hx' P (List.mem_cons_of_mem _ hP)
        rcases m with ⟨P, _ | _⟩ | F
        · have := hx' P (by simp)
          simp only [List.map_cons, planarMember, List.filterMap_cons, PMember.pot?, List.sum_cons,
            ih, ofRZ, this]
        · simp only [List.map_cons, planarMember, List.filterMap_cons, PMember.pot?, List.sum_cons,
            ih, ofFull]
        · simp only [List.map_cons, planarMember, List.filterMap_cons, PMember.pot?, List.sum_cons,
            ih, zero_add]
    · have : ∀ m ∈ ms, (planarMember m).force R φ t v
          = ((memberForce m).R R 0 φ t ![v.1, v.2, 0], (memberForce m).phi R 0 φ t ![v.1, v.2, 0]) :=
        fun m hm => one m (fun P hP => hx P (by rw [← hP]; exact hm)) R φ t v
      simp only [Planar.force, C52Spec.force, List.map_map]
      congr 2
      · exact List.map_congr_left fun m hm => by simp [Function.comp, this m hm]
      · exact List.map_congr_left fun m hm => by simp [Function.comp, this m hm]
  | planar p na => exact h3.elim
  | linear l => exact h3.elim
  | other => exact h3.elim
example : ∃ p, toPlanar (.comp [.pot (Plummer.pot 1) false, .pot (Plummer.pot 2) true]) = .ok p ∧
    ∀ R φ t, p.conservative.val R φ t
      = C52Spec.val (.comp [.pot (Plummer.pot 1) false, .pot (Plummer.pot 2) true]) R 0 φ t := by
  obtain ⟨p, h, h'⟩ := C52_toPlanar (.comp [.pot (Plummer.pot 1) false, .pot (Plummer.pot 2) true])
    trivial (by
      intro P hP R z φ t
      simp only [members, List.mem_cons, List.not_mem_nil, or_false] at hP
      rcases hP with hP | hP
      · injection hP with h1; subst h1; exact ⟨rfl, rfl, rfl⟩
      · injection hP with h1 h2; cases h2)
  exact ⟨p, h, fun R φ t => (h' R φ t).1⟩

/-- The planar reduction of a planar potential is that potential; it fails with `PotentialError`
exactly for one-dimensional potentials and things that are not potentials. -/
theorem C52_toPlanar_other (x : Thing) :
    (∀ p na, x = .planar p na → toPlanar x = .ok (.single (.pot p))) ∧
    ((∃ e, toPlanar x = .error e) ↔ (∃ l, x = .linear l) ∨ x = .other) ∧
    (∀ e, toPlanar x = .error e → e = .potentialError) := by
  cases x <;> simp [toPlanar]
example : ∃ e, toPlanar .other = .error e := ((C52_toPlanar_other _).2.1).2 (Or.inr rfl)

namespace C52aux

theorem rzMembers_ok {ms : List Member} (h : AllPot True (.comp ms)) :
    rzMembers ms = .ok (ms.map planarMember) := by
  induction ms with
  | nil => rfl
  | cons m ms ih =>
    obtain ⟨P, na, rfl, hn⟩ := h m (by simp [members])
    obtain rfl := hn trivial
    rw [rzMembers, ih fun m hm => h m (List.mem_cons_of_mem _ hm)]
    rfl

theorem rzMembers_error {ms : List Member} (h : ¬ AllPot True (.comp ms)) :
    rzMembers ms = .error .potentialError := by
  induction ms with
  | nil => exact absurd (fun m hm => absurd hm (by simp [members])) h
  | cons m ms ih =>
    rcases m with ⟨P, _ | _⟩ | F
    · have : ¬ AllPot True (.comp ms) := fun hh => h fun m hm => by
        rcases List.mem_cons.1 hm with rfl | hm
        · exact ⟨P, false, rfl, fun _ => rfl⟩
        · exact hh m hm
      rw [rzMembers, ih this]
      rfl
    · rfl
    · rfl

theorem any_diss {ms : List Member} :
    ms.any Member.isDiss = false ↔ AllPot False (.comp ms) := by
  induction ms with
  | nil => simp [AllPot, members]
  | cons m ms ih =>
    rcases m with ⟨P, na⟩ | F
    · simp only [List.any_cons, Member.isDiss, Bool.false_or, ih]
      constructor
      · intro h m hm
        rcases List.mem_cons.1 hm with rfl | hm
        · exact ⟨P, na, rfl, False.elim⟩
        · exact h m hm
      · exact fun h m hm => h m (List.mem_cons_of_mem _ hm)
    · simp only [List.any_cons, Member.isDiss, Bool.true_or, Bool.true_eq_false, false_iff]
      intro h
      obtain ⟨P, na, h, -⟩ := h _ (List.mem_cons_self ..)
      cases h

end C52aux

/-- `RZToplanarPotential` of a 3D thing succeeds exactly when all members are axisymmetric
potentials, and then returns what `toPlanarPotential` returns; with a dissipative member it raises
`NotImplementedError`, otherwise `PotentialError`. -/
theorem C52_RZToplanar (x : Thing) (h3 : Is3D x) :
    (AllPot True x → rzToPlanar x = toPlanar x) ∧
    (¬ AllPot False x → rzToPlanar x = .error .notImplemented) ∧
    (AllPot False x → ¬ AllPot True x → rzToPlanar x = .error .potentialError) := by
  cases x with
  | single m =>
    rcases m with ⟨P, _ | _⟩ | F
    · refine ⟨fun _ => rfl, fun h => absurd ?_ h, fun _ h => absurd ?_ h⟩ <;>
        exact fun m hm => ⟨P, false, by simpa [members] using hm, fun _ => rfl⟩
    · refine ⟨fun h => ?_, fun h => absurd ?_ h, fun _ _ => rfl⟩
      · obtain ⟨Q, na, h, h'⟩ := h _ (List.mem_cons_self ..)
        injection h with h1 h2
        rw [h' trivial] at h2; cases h2
      · exact fun m hm => ⟨P, true, by simpa [members] using hm, False.elim⟩
    · refine ⟨fun h => ?_, fun _ => rfl, fun h => ?_⟩ <;>
      · obtain ⟨Q, na, h, h'⟩ := h _ (List.mem_cons_self ..)
        cases h
  | comp ms =>
    have w : AllPot True (.comp ms) → AllPot False (.comp ms) := fun h m hm => by
      obtain ⟨P, na, h, -⟩ := h m hm
      exact ⟨P, na, h, False.elim⟩
    refine ⟨fun h => ?_, fun h => ?_, fun h h' => ?_⟩
    · simp only [rzToPlanar, isDissipative, C52aux.any_diss.2 (w h), C52aux.rzMembers_ok h, toPlanar]
      rfl
    · have : ms.any Member.isDiss = true := by
        rw [← Bool.not_eq_false]; exact fun hh => h (C52aux.any_diss.1 hh)
      simp only [rzToPlanar, isDissipative, this]
    · simp only [rzToPlanar, isDissipative, C52aux.any_diss.2 h, C52aux.rzMembers_error h']
      rfl
  | planar p na => exact h3.elim
  | linear l => exact h3.elim
  | other => exact h3.elim
example : rzToPlanar (.comp [.pot (Plummer.pot 1) false, .pot (Plummer.pot 2) true])
    = .error .potentialError := by
  refine (C52_RZToplanar (.comp [.pot (Plummer.pot 1) false, .pot (Plummer.pot 2) true])
    trivial).2.2 (fun m hm => ?_) fun h => ?_
  · simp only [members, List.mem_cons, List.not_mem_nil, or_false] at hm
    rcases hm with rfl | rfl
    exacts [⟨_, _, rfl, False.elim⟩, ⟨_, _, rfl, False.elim⟩]
  · obtain ⟨P, na, h, h'⟩ := h (.pot (Plummer.pot 2) true) (by simp [members])
    injection h with h1 h2
    rw [h' trivial] at h2; cases h2

/-- A planar orbit in the reduced potential is an orbit of the 3D object that stays in the plane,
provided the vertical force vanishes there. -/
theorem C52_planar_orbits (x : Thing) (h3 : Is3D x) (hx : Truthful x) (y : ℝ → Fin 4 → ℝ) (I : Set ℝ)
    (hz : ∀ R φ t v, (C52Spec.force x).z R 0 φ t v = 0) :
    ∃ p, toPlanar x = .ok p ∧
      (Solves (fun t y =>
          let F := p.force (y 0) (y 2) t (y 1, y 0 * y 3)
          ![y 1, (y 0 ^ 2 * y 3) ^ 2 / y 0 ^ 3 + F.1, y 3, 1 / y 0 ^ 2 * (F.2 - 2 * y 0 * y 1 * y 3)])
        y I →
      Solves (EOM.full (C52Spec.force x)) (fun t => ![y t 0, y t 1, y t 2, y t 3, 0, 0]) I) := by
  obtain ⟨p, hp, h⟩ := C52_toPlanar x h3 hx
  refine ⟨p, hp, fun hy s hs => ?_⟩
  have hd := hasDerivAt_pi.1 (hy s hs)
  have e := (h (y s 0) (y s 2) s).2 (y s 1, y s 0 * y s 3)
  refine hasDerivAt_pi.2 fun i => ?_
  fin_cases i
  · simpa [EOM.full] using hd 0
  · have := hd 1
    simp only [e] at this
    simpa [EOM.full] using this
  · simpa [EOM.full] using hd 2
  · have := hd 3
    simp only [e] at this
    simpa [EOM.full] using this
  · simpa [EOM.full] using hasDerivAt_const s (0 : ℝ)
  · have := hasDerivAt_const s (0 : ℝ)
    simp only [EOM.full]
    simpa [hz] using this

/-- The vertical force of a potential whose value is even in `z` vanishes in the plane. -/
theorem C52_even_zforce (P : Pot) (R φ t : ℝ) (he : ∀ z, P.val R (-z) φ t = P.val R z φ t)
    (h : GradAt P R 0 φ t) : P.zforce R 0 φ t = 0 := by
  have h1 : HasDerivAt (fun x => P.val R x φ t) (-(-(P.zforce R 0 φ t))) 0 := by
    have h0 : HasDerivAt (fun x => P.val R x φ t) (-(P.zforce R 0 φ t)) (-0) := by
      rw [neg_zero]; exact h.dz
    have := h0.comp (0 : ℝ) (hasDerivAt_neg (0 : ℝ))
    rw [mul_neg_one] at this
    refine this.congr_of_eventuallyEq (Filter.Eventually.of_forall fun x => ?_)
    exact (he x).symm
  have := h1.unique h.dz
  linarith
example : (Plummer.pot 1).zforce 1 0 0 0 = 0 :=
  C52_even_zforce _ 1 0 0 (fun z => by simp [Plummer.pot, Pot.axi, Plummer.evaluate])
    ((Plummer.consistent 1).grad 1 0 0 0 (by norm_num))
example : ∃ p, toPlanar (.single (.pot (Plummer.pot 1) false)) = .ok p := by
  obtain ⟨p, h, -⟩ := C52_planar_orbits (.single (.pot (Plummer.pot 1) false)) trivial
    (by
      intro P hP R z φ t
      simp only [members, List.mem_singleton] at hP
      injection hP with h1; subst h1; exact ⟨rfl, rfl, rfl⟩)
    (fun _ => 0) ∅ (fun R φ t v => by simp [C52Spec.force, memberForce, Pot.force, Plummer.pot,
      Pot.axi, Plummer.zforce])
  exact ⟨p, h⟩

/-- The vertical version of a potential at a radius and azimuth: the methods are the derivatives of
its value wherever those of the 3D potential are; its value is the difference from the value in the
midplane at the reference time, so it vanishes there and then. -/
theorem C52_vertical (P : Pot) (R φ t₀ z t : ℝ) :
    (GradAt P R z φ t → LGradAt (verticalOf P R φ t₀) z t) ∧
    (HessAt P R z φ t → LHessAt (verticalOf P R φ t₀) z t) ∧
    (verticalOf P R φ t₀).val z t = P.val R z φ t - P.val R 0 φ t₀ ∧
    (verticalOf P R φ t₀).val 0 t₀ = 0 ∧
    ((verticalOf P R φ t₀).val 0 t = 0 ↔ P.val R 0 φ t = P.val R 0 φ t₀) := by
  refine ⟨fun h => h.dz.sub_const _, fun h => ?_, rfl, sub_self _, sub_eq_zero⟩
  have e : (fun y => deriv (fun u => (verticalOf P R φ t₀).val u t) y)
      = fun y => deriv (fun u => P.val R u φ t) y := funext fun y => by
    simp only [verticalOf, deriv_sub_const_fun]
  unfold LHessAt
  rw [e]
  exact h.zz
example : LGradAt (verticalOf (Plummer.pot 1) 1 0 0) 2 0 :=
  (C52_vertical _ 1 0 0 2 0).1 ((Plummer.consistent 1).grad 1 2 0 0 (by norm_num))

namespace C52aux

theorem vertical_ok (P : Pot) (na : Bool) (R : ℝ) (phi : Option ℝ) (t₀ : ℝ)
    (h : phi = none → na = false) :
    vertical P na R phi t₀ = .ok (verticalOf P R (phi.getD 0) t₀) := by
  cases phi with
  | none => simp [vertical, h rfl]
  | some φ => rfl

theorem members_ok {ms : List Member} (R : ℝ) (phi : Option ℝ) (t₀ : ℝ)
    (h : AllPot (phi = none) (.comp ms)) :
    ∃ ls, verticalMembers R phi t₀ ms = .ok ls ∧ ∀ z t,
      (sumL ls).val z t = C52Spec.val (.comp ms) R z (phi.getD 0) t
        - C52Spec.val (.comp ms) R 0 (phi.getD 0) t₀ ∧
      ∀ v, (sumL ls).force z t = (C52Spec.force (.comp ms)).z R z (phi.getD 0) t v := by
  induction ms with
  | nil => exact ⟨[], rfl, fun z t => ⟨by simp [sumL, C52Spec.val], fun v => by simp [sumL, C52Spec.force]⟩⟩
  | cons m ms ih =>
    obtain ⟨ls, h1, h2⟩ := ih fun m hm => h m (List.mem_cons_of_mem _ hm)
    obtain ⟨P, na, rfl, hn⟩ := h m (List.mem_cons_self ..)
    refine ⟨verticalOf P R (phi.getD 0) t₀ :: ls, ?_, fun z t => ⟨?_, fun v => ?_⟩⟩
    · rw [verticalMembers, vertical_ok P na R phi t₀ hn, h1]
      rfl
    · have := (h2 z t).1
      simp only [sumL, C52Spec.val, List.map_cons, List.sum_cons, verticalOf] at this ⊢
      rw [this]; ring
    · have := (h2 z t).2 v
      simp only [sumL, C52Spec.force, List.map_cons, List.sum_cons, verticalOf] at this ⊢
      rw [this]; rfl

theorem members_error {ms : List Member} (R : ℝ) (phi : Option ℝ) (t₀ : ℝ)
    (h : ¬ AllPot (phi = none) (.comp ms)) :
    verticalMembers R phi t₀ ms = .error .potentialError := by
  induction ms with
  | nil => exact absurd (fun m hm => absurd hm (by simp [members])) h
  | cons m ms ih =>
    rcases m with ⟨P, na⟩ | F
    · by_cases hn : phi = none → na = false
      · have : ¬ AllPot (phi = none) (.comp ms) := fun hh => h fun m hm => by
          rcases List.mem_cons.1 hm with rfl | hm
          · exact ⟨P, na, rfl, hn⟩
          · exact hh m hm
        rw [verticalMembers, vertical_ok P na R phi t₀ hn, ih this]
        rfl
      · simp only [Classical.not_imp, Bool.not_eq_false] at hn
        obtain ⟨rfl, rfl⟩ := hn
        rfl
    · rfl

end C52aux

/-- `toVerticalPotential` at `(R, φ, t₀)` of a 3D thing: with a dissipative member it raises
`NotImplementedError`; otherwise it succeeds exactly when an azimuth is given or every member is
axisymmetric, raising `PotentialError` if not; and then the value is the difference of the total
value from its midplane value at the reference time, the force is the total vertical force, at the
given azimuth (0 when none is given). -/
theorem C52_toVertical (x : Thing) (R : ℝ) (phi : Option ℝ) (t₀ : ℝ) (h3 : Is3D x) :
    (¬ AllPot False x → toVertical x R phi t₀ = .error .notImplemented) ∧
    (AllPot False x → ¬ AllPot (phi = none) x → toVertical x R phi t₀ = .error .potentialError) ∧
    (AllPot (phi = none) x → ∃ l, toVertical x R phi t₀ = .ok l ∧ ∀ z t,
      l.val z t = C52Spec.val x R z (phi.getD 0) t - C52Spec.val x R 0 (phi.getD 0) t₀ ∧
      ∀ v, l.force z t = (C52Spec.force x).z R z (phi.getD 0) t v) := by
  cases x with
  | single m =>
    rcases m with ⟨P, na⟩ | F
    · refine ⟨fun h => absurd (fun m hm => ⟨P, na, by simpa [members] using hm, False.elim⟩) h,
        fun _ h => ?_, fun h => ?_⟩
      · have hn : ¬ (phi = none → na = false) := fun hn => h fun m hm =>
          ⟨P, na, by simpa [members] using hm, hn⟩
        simp only [Classical.not_imp, Bool.not_eq_false] at hn
        obtain ⟨rfl, rfl⟩ := hn
        rfl
      · obtain ⟨Q, nb, hQ, hn⟩ := h _ (List.mem_cons_self ..)
        injection hQ with h1 h2
        subst h1 h2
        exact ⟨_, C52aux.vertical_ok P na R phi t₀ hn, fun z t => ⟨rfl, fun v => rfl⟩⟩
    · refine ⟨fun _ => rfl, fun h => ?_, fun h => ?_⟩ <;>
      · obtain ⟨Q, na, h, h'⟩ := h _ (List.mem_cons_self ..)
        cases h
  | comp ms =>
    have w : AllPot (phi = none) (.comp ms) → AllPot False (.comp ms) := fun h m hm => by
      obtain ⟨P, na, h, -⟩ := h m hm
      exact ⟨P, na, h, False.elim⟩
    refine ⟨fun h => ?_, fun h h' => ?_, fun h => ?_⟩
    · have : ms.any Member.isDiss = true := by
        rw [← Bool.not_eq_false]; exact fun hh => h (C52aux.any_diss.1 hh)
      simp only [toVertical, isDissipative, this]
    · simp only [toVertical, isDissipative, C52aux.any_diss.2 h, C52aux.members_error R phi t₀ h']
      rfl
    · obtain ⟨ls, h1, h2⟩ := C52aux.members_ok R phi t₀ h
      refine ⟨sumL ls, ?_, h2⟩
      simp only [toVertical, isDissipative, C52aux.any_diss.2 (w h), h1]
      rfl
  | planar p na => exact h3.elim
  | linear l => exact h3.elim
  | other => exact h3.elim
example : ∃ l, toVertical (.comp [.pot (Plummer.pot 1) false, .pot (Plummer.pot 2) true]) 1 (some 2) 0
    = .ok l ∧ l.val 3 0 = (Plummer.pot 1).val 1 3 2 0 + (Plummer.pot 2).val 1 3 2 0
      - ((Plummer.pot 1).val 1 0 2 0 + (Plummer.pot 2).val 1 0 2 0) := by
  obtain ⟨l, h, h'⟩ := (C52_toVertical (.comp [.pot (Plummer.pot 1) false, .pot (Plummer.pot 2) true])
    1 (some 2) 0 trivial).2.2 (fun m hm => by
      simp only [members, List.mem_cons, List.not_mem_nil, or_false] at hm
      rcases hm with rfl | rfl
      exacts [⟨_, _, rfl, nofun⟩, ⟨_, _, rfl, nofun⟩])
  exact ⟨l, h, by simpa [C52Spec.val] using (h' 3 0).1⟩

/-- `RZToverticalPotential` is the vertical reduction without azimuth, at reference time 0: it
rejects every non-axisymmetric member; a one-dimensional potential is returned as it is, a planar
one rejected, by both functions. -/
theorem C52_vertical_other (x : Thing) (R : ℝ) (phi : Option ℝ) (t₀ : ℝ) :
    (∀ l, x = .linear l → toVertical x R phi t₀ = .ok l ∧ rzToVertical x R = .ok l) ∧
    (∀ p na, x = .planar p na → toVertical x R phi t₀ = .error .potentialError ∧
      rzToVertical x R = .error .potentialError) ∧
    (Is3D x → AllPot False x → ¬ AllPot True x → rzToVertical x R = .error .potentialError) := by
  refine ⟨?_, ?_, fun h3 h h' => (C52_toVertical x R none 0 h3).2.1 h fun hh => h' fun m hm => ?_⟩
  · rintro l rfl; exact ⟨rfl, rfl⟩
  · rintro p na rfl; exact ⟨rfl, rfl⟩
  · obtain ⟨P, na, h1, h2⟩ := hh m hm
    exact ⟨P, na, h1, fun _ => h2 rfl⟩
example : rzToVertical (.single (.pot (Plummer.pot 1) true)) 1 = .error .potentialError :=
  (C52_vertical_other (.single (.pot (Plummer.pot 1) true)) 1 none 0).2.2 trivial
    (fun m hm => ⟨_, true, by simpa [members] using hm, False.elim⟩) fun h => by
      obtain ⟨P, na, h1, h2⟩ := h _ (List.mem_cons_self ..)
      injection h1 with h3 h4
      rw [h2 trivial] at h4; cases h4

end Verif
