import Verif.Model.Integrators

set_option autoImplicit false

/-!
# C39: the integration routine that runs

The specification lists, for each documented method name, the routine it stands for; which routines are
written in C; and which evaluate the forces at a position only (symplectic routines, and IAS15, whose C code
passes zero velocities: `integrateFullOrbit.c` 1127-1129, 1307-1325).
-/

namespace Verif
open Integ

/-- The routine a documented method name stands for. -/
def C39.standsFor : List (List Char × Engine) :=
  [("odeint".toList, .pyOdeint), ("leapfrog".toList, .pyLeapfrog), ("dop853".toList, .pyDop853),
   ("leapfrog_c".toList, .c 0), ("rk4_c".toList, .c 1), ("rk6_c".toList, .c 2), ("symplec4_c".toList, .c 3),
   ("symplec6_c".toList, .c 4), ("dopr54_c".toList, .c 5), ("dop853_c".toList, .c 6), ("ias15_c".toList, .c 7)]

/-- Routines of the C library. -/
def C39.InC : Engine → Prop
  | .c _ => True
  | _ => False

/-- Routines that evaluate the forces without the velocity. -/
def C39.PositionOnly : Engine → Prop
  | .pyLeapfrog => True
  | .c 0 | .c 3 | .c 4 | .c 7 => True
  | _ => False

/-- Routines that are valid: in C only if the library is loaded and all the forces are implemented in C; not
position-only when a force depends on the velocity. -/
def C39.Admissible (e : Engine) (ext hasC diss : Bool) : Prop :=
  (C39.InC e → ext = true ∧ hasC = true) ∧ (diss = true → ¬ C39.PositionOnly e)

namespace C39

instance (e : Engine) : Decidable (InC e) := by unfold InC; split <;> infer_instance
instance (e : Engine) : Decidable (PositionOnly e) := by unfold PositionOnly; split <;> infer_instance
instance (e : Engine) (a b c : Bool) : Decidable (Admissible e a b c) := by unfold Admissible; infer_instance

/-- The names, spelled as documented. -/
theorem standsFor_eq : standsFor =
    [(odeint, .pyOdeint), (leapfrog, .pyLeapfrog), (dop853, .pyDop853),
     (leapfrog_c, .c 0), (rk4_c, .c 1), (rk6_c, .c 2), (symplec4_c, .c 3),
     (symplec6_c, .c 4), (dopr54_c, .c 5), (dop853_c, .c 6), (ias15_c, .c 7)] := by
  simp [standsFor, odeint, leapfrog, dop853, leapfrog_c, rk4_c, rk6_c, symplec4_c, symplec6_c, dopr54_c,
    dop853_c, ias15_c]

end C39

/-- A method name is accepted exactly if it is one of the documented ones up to upper and lower case. -/
theorem C39_accepts (m : List Char) (ext hasC diss forceMap : Bool) :
    (∃ e, integrateEngine m ext hasC diss forceMap = some e) ↔ ∃ e, (lower m, e) ∈ C39.standsFor := by
  have h1 : (∃ e, integrateEngine m ext hasC diss forceMap = some e) ↔
      lower m ∈ validMethods false false := by
    unfold integrateEngine
    by_cases h : lower m ∈ validMethods false false
    · have : checkIntegrator m false false = true := by unfold checkIntegrator; simpa using h
      simp only [this, Bool.not_true, Bool.false_eq_true, if_false]
      constructor
      · intro _; exact h
      · intro _; split <;> exact ⟨_, rfl⟩
    · have : checkIntegrator m false false = false := by unfold checkIntegrator; simpa using h
      simp [this, h]
  have h2 : (∃ e, (lower m, e) ∈ C39.standsFor) ↔ lower m ∈ C39.standsFor.map Prod.fst := by
    simp only [List.mem_map, Prod.exists, exists_and_right, exists_eq_right]
  rw [h1, h2, C39.standsFor_eq]
  simp only [validMethods, Bool.false_eq_true, if_false, List.mem_cons, List.not_mem_nil, or_false, List.map_cons,
    List.map_nil]
  tauto

namespace C39

/-- The documented names with their routines. -/
def table : List (List Char × Engine) :=
    [(odeint, .pyOdeint), (leapfrog, .pyLeapfrog), (dop853, .pyDop853),
     (leapfrog_c, .c 0), (rk4_c, .c 1), (rk6_c, .c 2), (symplec4_c, .c 3),
     (symplec6_c, .c 4), (dopr54_c, .c 5), (dop853_c, .c 6), (ias15_c, .c 7)]

theorem ias15_eq : "ias15_c".toList = ias15_c := by simp [ias15_c]

set_option maxRecDepth 4000 in
theorem integrate_table : ∀ mw ∈ table, ∀ ext hasC diss forceMap : Bool,
    (mw.1 ≠ ias15_c ∨ diss = false) → (integrateEngine mw.1 ext hasC diss forceMap).all (fun e =>
      decide (Admissible e ext hasC diss ∧ (Admissible mw.2 ext hasC diss → e = mw.2))) = true := by
  decide

set_option maxRecDepth 4000 in
theorem sos_table : ∀ mw ∈ table, ∀ ext hasC diss forceMap : Bool,
    (sosEngine mw.1 ext hasC diss forceMap).all (fun e =>
      decide (Admissible e ext hasC diss ∧ (Admissible mw.2 ext hasC diss → e = mw.2))) = true := by
  decide

set_option maxRecDepth 4000 in
theorem dxdv_table : ∀ mw ∈ table, ∀ ext hasC hasCdxdv diss : Bool,
    (dxdvEngine mw.1 ext hasC hasCdxdv diss).all (fun e =>
      decide (Admissible e ext (hasC && hasCdxdv) diss ∧
        (Admissible mw.2 ext (hasC && hasCdxdv) diss → e = mw.2))) = true := by
  decide

set_option maxRecDepth 4000 in
theorem refused_table : ∀ mw ∈ table,
    (∀ ext hasC diss forceMap : Bool, sosEngine mw.1 ext hasC diss forceMap = none ↔ PositionOnly mw.2) ∧
    (∀ ext hasC hasCdxdv diss : Bool, dxdvEngine mw.1 ext hasC hasCdxdv diss = none ↔
      mw.2 = .pyLeapfrog ∨ mw.2 = .c 7) := by
  decide

end C39

/-- For a method name spelled as documented, the routine that `integrate` runs is admissible, and it is the
requested one whenever that is admissible; the one exception is `ias15_c` with a velocity-dependent force.
(Missing: other spellings, and `ias15_c`: see `C39_spelling_fails`, `C39_ias15_fails`.) -/
theorem C39_integrate_partial (m : List Char) (e w : Engine) (ext hasC diss forceMap : Bool)
    (hw : (m, w) ∈ C39.standsFor) (h15 : m ≠ "ias15_c".toList ∨ diss = false)
    (h : integrateEngine m ext hasC diss forceMap = some e) :
    C39.Admissible e ext hasC diss ∧ (C39.Admissible w ext hasC diss → e = w) := by
  rw [C39.ias15_eq] at h15
  rw [C39.standsFor_eq] at hw
  have := C39.integrate_table (m, w) hw ext hasC diss forceMap h15
  rw [h] at this
  exact of_decide_eq_true this

/-- The same for `integrate_SOS`; names of position-only routines are refused. -/
theorem C39_sos (m : List Char) (w : Engine) (ext hasC diss forceMap : Bool) (hw : (m, w) ∈ C39.standsFor) :
    (sosEngine m ext hasC diss forceMap = none ↔ C39.PositionOnly w) ∧
    ∀ e, sosEngine m ext hasC diss forceMap = some e →
      C39.Admissible e ext hasC diss ∧ (C39.Admissible w ext hasC diss → e = w) := by
  rw [C39.standsFor_eq] at hw
  refine ⟨(C39.refused_table (m, w) hw).1 ext hasC diss forceMap, ?_⟩
  intro e h
  have := C39.sos_table (m, w) hw ext hasC diss forceMap
  rw [h] at this
  exact of_decide_eq_true this

/-- The same for `integrate_dxdv`, for which the second derivatives must be available in C too; the names
without a variational routine are refused. -/
theorem C39_dxdv (m : List Char) (w : Engine) (ext hasC hasCdxdv diss : Bool) (hw : (m, w) ∈ C39.standsFor) :
    (dxdvEngine m ext hasC hasCdxdv diss = none ↔ w = .pyLeapfrog ∨ w = .c 7) ∧
    ∀ e, dxdvEngine m ext hasC hasCdxdv diss = some e →
      C39.Admissible e ext (hasC && hasCdxdv) diss ∧ (C39.Admissible w ext (hasC && hasCdxdv) diss → e = w) := by
  rw [C39.standsFor_eq] at hw
  refine ⟨(C39.refused_table (m, w) hw).2 ext hasC hasCdxdv diss, ?_⟩
  intro e h
  have := C39.dxdv_table (m, w) hw ext hasC hasCdxdv diss
  rw [h] at this
  exact of_decide_eq_true this

/-- `ias15_c` is not rerouted for velocity-dependent forces, although its C code does not pass the velocity to
the forces. -/
theorem C39_ias15_fails : integrateEngine "ias15_c".toList true true true false = some (.c 7) ∧
    ¬ C39.Admissible (.c 7) true true true := by
  rw [C39.ias15_eq]
  decide

/-- A name in upper case is accepted, but the checks of the forces compare it with lower-case text: the C
leapfrog runs for a potential without C code, the Python leapfrog for a velocity-dependent force, and the
surface-of-section integration ignores the request. -/
theorem C39_spelling_fails :
    (integrateEngine "LEAPFROG_C".toList true false false false = some (.c 0) ∧
      ¬ C39.Admissible (.c 0) true false false) ∧
    (integrateEngine "Leapfrog".toList true true true false = some .pyLeapfrog ∧
      ¬ C39.Admissible .pyLeapfrog true true true) ∧
    (sosEngine "RK4_C".toList true true false false = some .pyOdeint ∧ C39.Admissible (.c 1) true true false) := by
  have h1 : "LEAPFROG_C".toList = ['L', 'E', 'A', 'P', 'F', 'R', 'O', 'G', '_', 'C'] := by simp
  have h2 : "Leapfrog".toList = ['L', 'e', 'a', 'p', 'f', 'r', 'o', 'g'] := by simp
  have h3 : "RK4_C".toList = ['R', 'K', '4', '_', 'C'] := by simp
  rw [h1, h2, h3]
  decide

/-- The hypotheses are satisfiable, and the routine may differ from the requested one: `symplec4_c` with a
velocity-dependent force runs `dopr54_c`. -/
example : ("symplec4_c".toList, Engine.c 3) ∈ C39.standsFor ∧
    integrateEngine symplec4_c true true true false = some (.c 5) := by
  refine ⟨by simp [C39.standsFor], by decide⟩

end Verif
