import Verif.Lemmas.Pot.Burkert
import Verif.Lemmas.Pot.DehnenSpecial
import Verif.Lemmas.Pot.FlattenedPower
import Verif.Lemmas.Pot.Isochrone
import Verif.Lemmas.Pot.KuzminDisk
import Verif.Lemmas.Pot.LogarithmicHalo
import Verif.Lemmas.Pot.MiyamotoNagai
import Verif.Lemmas.Pot.Plummer
import Verif.Lemmas.Pot.PowerSpherical
import Verif.Lemmas.Pot.PseudoIsothermal
import Verif.Lemmas.Pot.Shells
import Verif.Lemmas.Pot.TwoPower
import Verif.Lemmas.Pot.Ops

set_option autoImplicit false

/-!
# C51: C and Python implementations of potentials compute the same function

Each theorem: every function of the C implementation (`galpy/potential/potential_c_ext/*.c`),
called with the arguments the Python side packs, equals the corresponding public Python method
(amplitude included). The `_planar` theorems are for the functions the planar integrators call.
-/

namespace Verif

/-- Plummer.  -/
theorem C51_Plummer (amp b R z φ t : ℝ)  :
    Plummer.cEval amp b R z = ((Plummer.pot b).scale amp).val R z φ t ∧
    Plummer.cRforce amp b R z = ((Plummer.pot b).scale amp).Rforce R z φ t ∧
    Plummer.czforce amp b R z = ((Plummer.pot b).scale amp).zforce R z φ t ∧
    Plummer.cR2deriv amp b R z = ((Plummer.pot b).scale amp).R2deriv R z φ t ∧
    Plummer.cz2deriv amp b R z = ((Plummer.pot b).scale amp).z2deriv R z φ t ∧
    Plummer.cRzderiv amp b R z = ((Plummer.pot b).scale amp).Rzderiv R z φ t ∧
    Plummer.cDens amp b R z = ((Plummer.pot b).scale amp).dens R z φ t := by
  refine ⟨?_, ?_, ?_, ?_, ?_, ?_, ?_⟩
  · apply Plummer.cEval_eq <;> assumption
  · apply Plummer.cRforce_eq <;> assumption
  · apply Plummer.czforce_eq <;> assumption
  · apply Plummer.cR2deriv_eq <;> assumption
  · apply Plummer.cz2deriv_eq <;> assumption
  · apply Plummer.cRzderiv_eq <;> assumption
  · apply Plummer.cDens_eq <;> assumption
example : Plummer.cEval 3 1 1 1 = ((Plummer.pot 1).scale 3).val 1 1 0 0 :=
  (C51_Plummer 3 1 1 1 0 0 ).1

/-- Plummer, planar functions (`z = 0`). -/
theorem C51_Plummer_planar (amp b R φ t : ℝ)  :
    Plummer.cPlanarRforce amp b R = ((Plummer.pot b).scale amp).Rforce R 0 φ t ∧
    Plummer.cPlanarR2deriv amp b R = ((Plummer.pot b).scale amp).R2deriv R 0 φ t := by
  refine ⟨?_, ?_⟩
  · apply Plummer.cPlanarRforce_eq <;> assumption
  · apply Plummer.cPlanarR2deriv_eq <;> assumption
example : Plummer.cPlanarRforce 3 1 1 = ((Plummer.pot 1).scale 3).Rforce 1 0 0 0 :=
  (C51_Plummer_planar 3 1 1 0 0 ).1

/-- Isochrone.  -/
theorem C51_Isochrone (amp b R z φ t : ℝ) (hb : 0 ≤ b) (h : 0 < R ^ 2 + z ^ 2) :
    Isochrone.cEval amp b R z = ((Isochrone.pot b).scale amp).val R z φ t ∧
    Isochrone.cRforce amp b R z = ((Isochrone.pot b).scale amp).Rforce R z φ t ∧
    Isochrone.czforce amp b R z = ((Isochrone.pot b).scale amp).zforce R z φ t ∧
    Isochrone.cR2deriv amp b R z = ((Isochrone.pot b).scale amp).R2deriv R z φ t ∧
    Isochrone.cz2deriv amp b R z = ((Isochrone.pot b).scale amp).z2deriv R z φ t ∧
    Isochrone.cRzderiv amp b R z = ((Isochrone.pot b).scale amp).Rzderiv R z φ t ∧
    Isochrone.cDens amp b R z = ((Isochrone.pot b).scale amp).dens R z φ t := by
  refine ⟨?_, ?_, ?_, ?_, ?_, ?_, ?_⟩
  · apply Isochrone.cEval_eq <;> assumption
  · apply Isochrone.cRforce_eq <;> assumption
  · apply Isochrone.czforce_eq <;> assumption
  · apply Isochrone.cR2deriv_eq <;> assumption
  · apply Isochrone.cz2deriv_eq <;> assumption
  · apply Isochrone.cRzderiv_eq <;> assumption
  · apply Isochrone.cDens_eq <;> assumption
example : Isochrone.cEval 3 1 1 1 = ((Isochrone.pot 1).scale 3).val 1 1 0 0 :=
  (C51_Isochrone 3 1 1 1 0 0 (by norm_num) (by norm_num)).1

/-- Isochrone, planar functions (`z = 0`). -/
theorem C51_Isochrone_planar (amp b R φ t : ℝ)  :
    Isochrone.cPlanarRforce amp b R = ((Isochrone.pot b).scale amp).Rforce R 0 φ t ∧
    Isochrone.cPlanarR2deriv amp b R = ((Isochrone.pot b).scale amp).R2deriv R 0 φ t := by
  refine ⟨?_, ?_⟩
  · apply Isochrone.cPlanarRforce_eq <;> assumption
  · apply Isochrone.cPlanarR2deriv_eq <;> assumption
example : Isochrone.cPlanarRforce 3 1 1 = ((Isochrone.pot 1).scale 3).Rforce 1 0 0 0 :=
  (C51_Isochrone_planar 3 1 1 0 0 ).1

/-- MiyamotoNagai. `scalar` selects the float / array code path of the Python methods. -/
theorem C51_MiyamotoNagai (scalar : Bool) (amp a b R z φ t : ℝ) (hz : 0 < z ^ 2 + b ^ 2) (hu : 0 < R ^ 2 + (a + √(z ^ 2 + b ^ 2)) ^ 2) :
    MiyamotoNagai.cEval amp a b R z = ((MiyamotoNagai.pot scalar a b).scale amp).val R z φ t ∧
    MiyamotoNagai.cRforce amp a b R z = ((MiyamotoNagai.pot scalar a b).scale amp).Rforce R z φ t ∧
    MiyamotoNagai.czforce amp a b R z = ((MiyamotoNagai.pot scalar a b).scale amp).zforce R z φ t ∧
    MiyamotoNagai.cR2deriv amp a b R z = ((MiyamotoNagai.pot scalar a b).scale amp).R2deriv R z φ t ∧
    MiyamotoNagai.cz2deriv amp a b R z = ((MiyamotoNagai.pot scalar a b).scale amp).z2deriv R z φ t ∧
    MiyamotoNagai.cRzderiv amp a b R z = ((MiyamotoNagai.pot scalar a b).scale amp).Rzderiv R z φ t ∧
    MiyamotoNagai.cDens amp a b R z = ((MiyamotoNagai.pot scalar a b).scale amp).dens R z φ t := by
  refine ⟨?_, ?_, ?_, ?_, ?_, ?_, ?_⟩
  · apply MiyamotoNagai.cEval_eq <;> assumption
  · apply MiyamotoNagai.cRforce_eq <;> assumption
  · apply MiyamotoNagai.czforce_eq <;> assumption
  · apply MiyamotoNagai.cR2deriv_eq <;> assumption
  · apply MiyamotoNagai.cz2deriv_eq <;> assumption
  · apply MiyamotoNagai.cRzderiv_eq <;> assumption
  · apply MiyamotoNagai.cDens_eq <;> assumption
example : MiyamotoNagai.cEval 3 1 1 1 1 = ((MiyamotoNagai.pot true 1 1).scale 3).val 1 1 0 0 :=
  (C51_MiyamotoNagai true 3 1 1 1 1 0 0 (by norm_num) (by positivity)).1

/-- MiyamotoNagai, planar functions (`z = 0`). -/
theorem C51_MiyamotoNagai_planar (scalar : Bool) (amp a b R φ t : ℝ) (hb : 0 ≤ b) (hu : 0 < R ^ 2 + (a + b) ^ 2) :
    MiyamotoNagai.cPlanarRforce amp a b R = ((MiyamotoNagai.pot scalar a b).scale amp).Rforce R 0 φ t ∧
    MiyamotoNagai.cPlanarR2deriv amp a b R = ((MiyamotoNagai.pot scalar a b).scale amp).R2deriv R 0 φ t := by
  refine ⟨?_, ?_⟩
  · apply MiyamotoNagai.cPlanarRforce_eq <;> assumption
  · apply MiyamotoNagai.cPlanarR2deriv_eq <;> assumption
example : MiyamotoNagai.cPlanarRforce 3 1 1 1 = ((MiyamotoNagai.pot true 1 1).scale 3).Rforce 1 0 0 0 :=
  (C51_MiyamotoNagai_planar true 3 1 1 1 0 0 (by norm_num) (by norm_num)).1

/-- KuzminDisk. Off the razor-thin disk (`z = 0`), where the potential is not differentiable. -/
theorem C51_KuzminDisk (amp a R z φ t : ℝ) (hu : 0 < R ^ 2 + (a + |z|) ^ 2) :
    KuzminDisk.cEval amp a R z = ((KuzminDisk.pot a).scale amp).val R z φ t ∧
    KuzminDisk.cRforce amp a R z = ((KuzminDisk.pot a).scale amp).Rforce R z φ t ∧
    KuzminDisk.czforce amp a R z = ((KuzminDisk.pot a).scale amp).zforce R z φ t ∧
    KuzminDisk.cR2deriv amp a R z = ((KuzminDisk.pot a).scale amp).R2deriv R z φ t ∧
    KuzminDisk.cz2deriv amp a R z = ((KuzminDisk.pot a).scale amp).z2deriv R z φ t ∧
    KuzminDisk.cRzderiv amp a R z = ((KuzminDisk.pot a).scale amp).Rzderiv R z φ t := by
  refine ⟨?_, ?_, ?_, ?_, ?_, ?_⟩
  · apply KuzminDisk.cEval_eq <;> assumption
  · apply KuzminDisk.cRforce_eq <;> assumption
  · apply KuzminDisk.czforce_eq <;> assumption
  · apply KuzminDisk.cR2deriv_eq <;> assumption
  · apply KuzminDisk.cz2deriv_eq <;> assumption
  · apply KuzminDisk.cRzderiv_eq <;> assumption
example : KuzminDisk.cEval 3 1 1 1 = ((KuzminDisk.pot 1).scale 3).val 1 1 0 0 :=
  (C51_KuzminDisk 3 1 1 1 0 0 (by positivity)).1

/-- KuzminDisk, planar functions (`z = 0`). -/
theorem C51_KuzminDisk_planar (amp a R φ t : ℝ)  :
    KuzminDisk.cPlanarRforce amp a R = ((KuzminDisk.pot a).scale amp).Rforce R 0 φ t := by
  apply KuzminDisk.cPlanarRforce_eq <;> assumption
example : KuzminDisk.cPlanarRforce 3 1 1 = ((KuzminDisk.pot 1).scale 3).Rforce 1 0 0 0 :=
  (C51_KuzminDisk_planar 3 1 1 0 0 )

/-- PowerSpherical. Includes `KeplerPotential` (α = 3) and the point mass. -/
theorem C51_PowerSpherical (amp α R z φ t : ℝ) (h : 0 < R ^ 2 + z ^ 2) :
    PowerSpherical.cEval amp α R z = ((PowerSpherical.pot α).scale amp).val R z φ t ∧
    PowerSpherical.cRforce amp α R z = ((PowerSpherical.pot α).scale amp).Rforce R z φ t ∧
    PowerSpherical.czforce amp α R z = ((PowerSpherical.pot α).scale amp).zforce R z φ t ∧
    PowerSpherical.cR2deriv amp α R z = ((PowerSpherical.pot α).scale amp).R2deriv R z φ t ∧
    PowerSpherical.cz2deriv amp α R z = ((PowerSpherical.pot α).scale amp).z2deriv R z φ t ∧
    PowerSpherical.cRzderiv amp α R z = ((PowerSpherical.pot α).scale amp).Rzderiv R z φ t ∧
    PowerSpherical.cDens amp α R z = ((PowerSpherical.pot α).scale amp).dens R z φ t := by
  refine ⟨?_, ?_, ?_, ?_, ?_, ?_, ?_⟩
  · apply PowerSpherical.cEval_eq <;> assumption
  · apply PowerSpherical.cRforce_eq <;> assumption
  · apply PowerSpherical.czforce_eq <;> assumption
  · apply PowerSpherical.cR2deriv_eq <;> assumption
  · apply PowerSpherical.cz2deriv_eq <;> assumption
  · apply PowerSpherical.cRzderiv_eq <;> assumption
  · apply PowerSpherical.cDens_eq <;> assumption
example : PowerSpherical.cEval 3 2 1 1 = ((PowerSpherical.pot 2).scale 3).val 1 1 0 0 :=
  (C51_PowerSpherical 3 2 1 1 0 0 (by norm_num)).1

/-- PowerSpherical, planar functions (`z = 0`). -/
theorem C51_PowerSpherical_planar (amp α R φ t : ℝ) (hR : 0 < R) :
    PowerSpherical.cPlanarRforce amp α R = ((PowerSpherical.pot α).scale amp).Rforce R 0 φ t ∧
    PowerSpherical.cPlanarR2deriv amp α R = ((PowerSpherical.pot α).scale amp).R2deriv R 0 φ t := by
  refine ⟨?_, ?_⟩
  · apply PowerSpherical.cPlanarRforce_eq <;> assumption
  · apply PowerSpherical.cPlanarR2deriv_eq <;> assumption
example : PowerSpherical.cPlanarRforce 3 2 1 = ((PowerSpherical.pot 2).scale 3).Rforce 1 0 0 0 :=
  (C51_PowerSpherical_planar 3 2 1 0 0 (by norm_num)).1

/-- FlattenedPower. `q2`, `c2` are the squared flattening and core radius the constructor stores. -/
theorem C51_FlattenedPower (amp α q2 c2 R z φ t : ℝ)  :
    FlattenedPower.cEval amp α q2 c2 R z = ((FlattenedPower.pot α q2 c2).scale amp).val R z φ t ∧
    FlattenedPower.cRforce amp α q2 c2 R z = ((FlattenedPower.pot α q2 c2).scale amp).Rforce R z φ t ∧
    FlattenedPower.czforce amp α q2 c2 R z = ((FlattenedPower.pot α q2 c2).scale amp).zforce R z φ t ∧
    FlattenedPower.cR2deriv amp α q2 c2 R z = ((FlattenedPower.pot α q2 c2).scale amp).R2deriv R z φ t ∧
    FlattenedPower.cz2deriv amp α q2 c2 R z = ((FlattenedPower.pot α q2 c2).scale amp).z2deriv R z φ t ∧
    FlattenedPower.cRzderiv amp α q2 c2 R z = ((FlattenedPower.pot α q2 c2).scale amp).Rzderiv R z φ t ∧
    FlattenedPower.cDens amp α q2 c2 R z = ((FlattenedPower.pot α q2 c2).scale amp).dens R z φ t := by
  refine ⟨?_, ?_, ?_, ?_, ?_, ?_, ?_⟩
  · apply FlattenedPower.cEval_eq <;> assumption
  · apply FlattenedPower.cRforce_eq <;> assumption
  · apply FlattenedPower.czforce_eq <;> assumption
  · apply FlattenedPower.cR2deriv_eq <;> assumption
  · apply FlattenedPower.cz2deriv_eq <;> assumption
  · apply FlattenedPower.cRzderiv_eq <;> assumption
  · apply FlattenedPower.cDens_eq <;> assumption
example : FlattenedPower.cEval 3 1 1 1 1 1 = ((FlattenedPower.pot 1 1 1).scale 3).val 1 1 0 0 :=
  (C51_FlattenedPower 3 1 1 1 1 1 0 0 ).1

/-- FlattenedPower, planar functions (`z = 0`). -/
theorem C51_FlattenedPower_planar (amp α q2 c2 R φ t : ℝ)  :
    FlattenedPower.cPlanarRforce amp α c2 R = ((FlattenedPower.pot α q2 c2).scale amp).Rforce R 0 φ t ∧
    FlattenedPower.cPlanarR2deriv amp α c2 R = ((FlattenedPower.pot α q2 c2).scale amp).R2deriv R 0 φ t := by
  refine ⟨?_, ?_⟩
  · apply FlattenedPower.cPlanarRforce_eq <;> assumption
  · apply FlattenedPower.cPlanarR2deriv_eq <;> assumption
example : FlattenedPower.cPlanarRforce 3 1 1 1 = ((FlattenedPower.pot 1 1 1).scale 3).Rforce 1 0 0 0 :=
  (C51_FlattenedPower_planar 3 1 1 1 1 0 0 ).1

/-- Burkert.  -/
theorem C51_Burkert (amp a R z φ t : ℝ) (ha : 0 < a) (h : 0 < R ^ 2 + z ^ 2) :
    Burkert.cEval amp a R z = ((Burkert.pot a).scale amp).val R z φ t ∧
    Burkert.cRforce amp a R z = ((Burkert.pot a).scale amp).Rforce R z φ t ∧
    Burkert.czforce amp a R z = ((Burkert.pot a).scale amp).zforce R z φ t ∧
    Burkert.cR2deriv amp a R z = ((Burkert.pot a).scale amp).R2deriv R z φ t ∧
    Burkert.cz2deriv amp a R z = ((Burkert.pot a).scale amp).z2deriv R z φ t ∧
    Burkert.cRzderiv amp a R z = ((Burkert.pot a).scale amp).Rzderiv R z φ t ∧
    Burkert.cDens amp a R z = ((Burkert.pot a).scale amp).dens R z φ t := by
  refine ⟨?_, ?_, ?_, ?_, ?_, ?_, ?_⟩
  · apply Burkert.cEval_eq <;> assumption
  · apply Burkert.cRforce_eq <;> assumption
  · apply Burkert.czforce_eq <;> assumption
  · apply Burkert.cR2deriv_eq <;> assumption
  · apply Burkert.cz2deriv_eq <;> assumption
  · apply Burkert.cRzderiv_eq <;> assumption
  · apply Burkert.cDens_eq <;> assumption
example : Burkert.cEval 3 2 1 1 = ((Burkert.pot 2).scale 3).val 1 1 0 0 :=
  (C51_Burkert 3 2 1 1 0 0 (by norm_num) (by norm_num)).1

/-- Burkert, planar functions (`z = 0`). -/
theorem C51_Burkert_planar (amp a R φ t : ℝ) (ha : 0 < a) (hR : 0 < R) :
    Burkert.cPlanarRforce amp a R = ((Burkert.pot a).scale amp).Rforce R 0 φ t ∧
    Burkert.cPlanarR2deriv amp a R = ((Burkert.pot a).scale amp).R2deriv R 0 φ t := by
  refine ⟨?_, ?_⟩
  · apply Burkert.cPlanarRforce_eq <;> assumption
  · apply Burkert.cPlanarR2deriv_eq <;> assumption
example : Burkert.cPlanarRforce 3 2 1 = ((Burkert.pot 2).scale 3).Rforce 1 0 0 0 :=
  (C51_Burkert_planar 3 2 1 0 0 (by norm_num) (by norm_num)).1

/-- PseudoIsothermal.  -/
theorem C51_PseudoIsothermal (amp a R z φ t : ℝ) (ha : 0 < a) (h : 0 < R ^ 2 + z ^ 2) :
    PseudoIsothermal.cEval amp a R z = ((PseudoIsothermal.pot a).scale amp).val R z φ t ∧
    PseudoIsothermal.cRforce amp a R z = ((PseudoIsothermal.pot a).scale amp).Rforce R z φ t ∧
    PseudoIsothermal.czforce amp a R z = ((PseudoIsothermal.pot a).scale amp).zforce R z φ t ∧
    PseudoIsothermal.cR2deriv amp a R z = ((PseudoIsothermal.pot a).scale amp).R2deriv R z φ t ∧
    PseudoIsothermal.cz2deriv amp a R z = ((PseudoIsothermal.pot a).scale amp).z2deriv R z φ t ∧
    PseudoIsothermal.cRzderiv amp a R z = ((PseudoIsothermal.pot a).scale amp).Rzderiv R z φ t ∧
    PseudoIsothermal.cDens amp a R z = ((PseudoIsothermal.pot a).scale amp).dens R z φ t := by
  refine ⟨?_, ?_, ?_, ?_, ?_, ?_, ?_⟩
  · apply PseudoIsothermal.cEval_eq <;> assumption
  · apply PseudoIsothermal.cRforce_eq <;> assumption
  · apply PseudoIsothermal.czforce_eq <;> assumption
  · apply PseudoIsothermal.cR2deriv_eq <;> assumption
  · apply PseudoIsothermal.cz2deriv_eq <;> assumption
  · apply PseudoIsothermal.cRzderiv_eq <;> assumption
  · apply PseudoIsothermal.cDens_eq <;> assumption
example : PseudoIsothermal.cEval 3 2 1 1 = ((PseudoIsothermal.pot 2).scale 3).val 1 1 0 0 :=
  (C51_PseudoIsothermal 3 2 1 1 0 0 (by norm_num) (by norm_num)).1

/-- PseudoIsothermal, planar functions (`z = 0`). -/
theorem C51_PseudoIsothermal_planar (amp a R φ t : ℝ) (ha : 0 < a) (hR : 0 < R) :
    PseudoIsothermal.cPlanarRforce amp a R = ((PseudoIsothermal.pot a).scale amp).Rforce R 0 φ t ∧
    PseudoIsothermal.cPlanarR2deriv amp a R = ((PseudoIsothermal.pot a).scale amp).R2deriv R 0 φ t := by
  refine ⟨?_, ?_⟩
  · apply PseudoIsothermal.cPlanarRforce_eq <;> assumption
  · apply PseudoIsothermal.cPlanarR2deriv_eq <;> assumption
example : PseudoIsothermal.cPlanarRforce 3 2 1 = ((PseudoIsothermal.pot 2).scale 3).Rforce 1 0 0 0 :=
  (C51_PseudoIsothermal_planar 3 2 1 0 0 (by norm_num) (by norm_num)).1

/-- DehnenCore.  -/
theorem C51_DehnenCore (amp a R z φ t : ℝ) (ha : 0 < a) (h : 0 < R ^ 2 + z ^ 2) :
    DehnenCore.cEval amp a R z = ((DehnenCore.pot a).scale amp).val R z φ t ∧
    DehnenCore.cRforce amp a R z = ((DehnenCore.pot a).scale amp).Rforce R z φ t ∧
    DehnenCore.czforce amp a R z = ((DehnenCore.pot a).scale amp).zforce R z φ t ∧
    DehnenCore.cR2deriv amp a R z = ((DehnenCore.pot a).scale amp).R2deriv R z φ t ∧
    DehnenCore.cz2deriv amp a R z = ((DehnenCore.pot a).scale amp).z2deriv R z φ t ∧
    DehnenCore.cRzderiv amp a R z = ((DehnenCore.pot a).scale amp).Rzderiv R z φ t ∧
    DehnenCore.cDens amp a R z = ((DehnenCore.pot a).scale amp).dens R z φ t := by
  refine ⟨?_, ?_, ?_, ?_, ?_, ?_, ?_⟩
  · apply DehnenCore.cEval_eq <;> assumption
  · apply DehnenCore.cRforce_eq <;> assumption
  · apply DehnenCore.czforce_eq <;> assumption
  · apply DehnenCore.cR2deriv_eq <;> assumption
  · apply DehnenCore.cz2deriv_eq <;> assumption
  · apply DehnenCore.cRzderiv_eq <;> assumption
  · apply DehnenCore.cDens_eq <;> assumption
example : DehnenCore.cEval 3 2 1 1 = ((DehnenCore.pot 2).scale 3).val 1 1 0 0 :=
  (C51_DehnenCore 3 2 1 1 0 0 (by norm_num) (by norm_num)).1

/-- DehnenCore, planar functions (`z = 0`). -/
theorem C51_DehnenCore_planar (amp a R φ t : ℝ) (ha : 0 < a) (hR : 0 < R) :
    DehnenCore.cPlanarRforce amp a R = ((DehnenCore.pot a).scale amp).Rforce R 0 φ t ∧
    DehnenCore.cPlanarR2deriv amp a R = ((DehnenCore.pot a).scale amp).R2deriv R 0 φ t := by
  refine ⟨?_, ?_⟩
  · apply DehnenCore.cPlanarRforce_eq <;> assumption
  · apply DehnenCore.cPlanarR2deriv_eq <;> assumption
example : DehnenCore.cPlanarRforce 3 2 1 = ((DehnenCore.pot 2).scale 3).Rforce 1 0 0 0 :=
  (C51_DehnenCore_planar 3 2 1 0 0 (by norm_num) (by norm_num)).1

/-- Hernquist.  -/
theorem C51_Hernquist (amp a R z φ t : ℝ) (ha : 0 < a) (h : 0 < R ^ 2 + z ^ 2) :
    Hernquist.cEval amp a R z = ((Hernquist.pot a).scale amp).val R z φ t ∧
    Hernquist.cRforce amp a R z = ((Hernquist.pot a).scale amp).Rforce R z φ t ∧
    Hernquist.czforce amp a R z = ((Hernquist.pot a).scale amp).zforce R z φ t ∧
    Hernquist.cR2deriv amp a R z = ((Hernquist.pot a).scale amp).R2deriv R z φ t ∧
    Hernquist.cz2deriv amp a R z = ((Hernquist.pot a).scale amp).z2deriv R z φ t ∧
    Hernquist.cRzderiv amp a R z = ((Hernquist.pot a).scale amp).Rzderiv R z φ t ∧
    Hernquist.cDens amp a R z = ((Hernquist.pot a).scale amp).dens R z φ t := by
  refine ⟨?_, ?_, ?_, ?_, ?_, ?_, ?_⟩
  · apply Hernquist.cEval_eq <;> assumption
  · apply Hernquist.cRforce_eq <;> assumption
  · apply Hernquist.czforce_eq <;> assumption
  · apply Hernquist.cR2deriv_eq <;> assumption
  · apply Hernquist.cz2deriv_eq <;> assumption
  · apply Hernquist.cRzderiv_eq <;> assumption
  · apply Hernquist.cDens_eq <;> assumption
example : Hernquist.cEval 3 2 1 1 = ((Hernquist.pot 2).scale 3).val 1 1 0 0 :=
  (C51_Hernquist 3 2 1 1 0 0 (by norm_num) (by norm_num)).1

/-- Hernquist, planar functions (`z = 0`). -/
theorem C51_Hernquist_planar (amp a R φ t : ℝ) (ha : 0 < a) (hR : 0 < R) :
    Hernquist.cPlanarRforce amp a R = ((Hernquist.pot a).scale amp).Rforce R 0 φ t ∧
    Hernquist.cPlanarR2deriv amp a R = ((Hernquist.pot a).scale amp).R2deriv R 0 φ t := by
  refine ⟨?_, ?_⟩
  · apply Hernquist.cPlanarRforce_eq <;> assumption
  · apply Hernquist.cPlanarR2deriv_eq <;> assumption
example : Hernquist.cPlanarRforce 3 2 1 = ((Hernquist.pot 2).scale 3).Rforce 1 0 0 0 :=
  (C51_Hernquist_planar 3 2 1 0 0 (by norm_num) (by norm_num)).1

/-- Jaffe.  -/
theorem C51_Jaffe (amp a R z φ t : ℝ) (ha : 0 < a) (h : 0 < R ^ 2 + z ^ 2) :
    Jaffe.cEval amp a R z = ((Jaffe.pot a).scale amp).val R z φ t ∧
    Jaffe.cRforce amp a R z = ((Jaffe.pot a).scale amp).Rforce R z φ t ∧
    Jaffe.czforce amp a R z = ((Jaffe.pot a).scale amp).zforce R z φ t ∧
    Jaffe.cR2deriv amp a R z = ((Jaffe.pot a).scale amp).R2deriv R z φ t ∧
    Jaffe.cz2deriv amp a R z = ((Jaffe.pot a).scale amp).z2deriv R z φ t ∧
    Jaffe.cRzderiv amp a R z = ((Jaffe.pot a).scale amp).Rzderiv R z φ t ∧
    Jaffe.cDens amp a R z = ((Jaffe.pot a).scale amp).dens R z φ t := by
  refine ⟨?_, ?_, ?_, ?_, ?_, ?_, ?_⟩
  · apply Jaffe.cEval_eq <;> assumption
  · apply Jaffe.cRforce_eq <;> assumption
  · apply Jaffe.czforce_eq <;> assumption
  · apply Jaffe.cR2deriv_eq <;> assumption
  · apply Jaffe.cz2deriv_eq <;> assumption
  · apply Jaffe.cRzderiv_eq <;> assumption
  · apply Jaffe.cDens_eq <;> assumption
example : Jaffe.cEval 3 2 1 1 = ((Jaffe.pot 2).scale 3).val 1 1 0 0 :=
  (C51_Jaffe 3 2 1 1 0 0 (by norm_num) (by norm_num)).1

/-- Jaffe, planar functions (`z = 0`). -/
theorem C51_Jaffe_planar (amp a R φ t : ℝ) (ha : 0 < a) (hR : 0 < R) :
    Jaffe.cPlanarRforce amp a R = ((Jaffe.pot a).scale amp).Rforce R 0 φ t ∧
    Jaffe.cPlanarR2deriv amp a R = ((Jaffe.pot a).scale amp).R2deriv R 0 φ t := by
  refine ⟨?_, ?_⟩
  · apply Jaffe.cPlanarRforce_eq <;> assumption
  · apply Jaffe.cPlanarR2deriv_eq <;> assumption
example : Jaffe.cPlanarRforce 3 2 1 = ((Jaffe.pot 2).scale 3).Rforce 1 0 0 0 :=
  (C51_Jaffe_planar 3 2 1 0 0 (by norm_num) (by norm_num)).1

/-- NFW.  -/
theorem C51_NFW (amp a R z φ t : ℝ) (ha : 0 < a) (h : 0 < R ^ 2 + z ^ 2) :
    NFW.cEval amp a R z = ((NFW.pot a).scale amp).val R z φ t ∧
    NFW.cRforce amp a R z = ((NFW.pot a).scale amp).Rforce R z φ t ∧
    NFW.czforce amp a R z = ((NFW.pot a).scale amp).zforce R z φ t ∧
    NFW.cR2deriv amp a R z = ((NFW.pot a).scale amp).R2deriv R z φ t ∧
    NFW.cz2deriv amp a R z = ((NFW.pot a).scale amp).z2deriv R z φ t ∧
    NFW.cRzderiv amp a R z = ((NFW.pot a).scale amp).Rzderiv R z φ t ∧
    NFW.cDens amp a R z = ((NFW.pot a).scale amp).dens R z φ t := by
  refine ⟨?_, ?_, ?_, ?_, ?_, ?_, ?_⟩
  · apply NFW.cEval_eq <;> assumption
  · apply NFW.cRforce_eq <;> assumption
  · apply NFW.czforce_eq <;> assumption
  · apply NFW.cR2deriv_eq <;> assumption
  · apply NFW.cz2deriv_eq <;> assumption
  · apply NFW.cRzderiv_eq <;> assumption
  · apply NFW.cDens_eq <;> assumption
example : NFW.cEval 3 2 1 1 = ((NFW.pot 2).scale 3).val 1 1 0 0 :=
  (C51_NFW 3 2 1 1 0 0 (by norm_num) (by norm_num)).1

/-- NFW, planar functions (`z = 0`). -/
theorem C51_NFW_planar (amp a R φ t : ℝ) (ha : 0 < a) (hR : 0 < R) :
    NFW.cPlanarRforce amp a R = ((NFW.pot a).scale amp).Rforce R 0 φ t ∧
    NFW.cPlanarR2deriv amp a R = ((NFW.pot a).scale amp).R2deriv R 0 φ t := by
  refine ⟨?_, ?_⟩
  · apply NFW.cPlanarRforce_eq <;> assumption
  · apply NFW.cPlanarR2deriv_eq <;> assumption
example : NFW.cPlanarRforce 3 2 1 = ((NFW.pot 2).scale 3).Rforce 1 0 0 0 :=
  (C51_NFW_planar 3 2 1 0 0 (by norm_num) (by norm_num)).1

/-- HomogeneousSphere. Inside and outside; the surface itself is covered for C01 by `C01_HomogeneousSphere_surface`. -/
theorem C51_HomogeneousSphere (amp a R z φ t : ℝ) (h : 0 < R ^ 2 + z ^ 2) :
    HomogeneousSphere.cEval amp (a ^ 2) (a ^ 3) R z = ((HomogeneousSphere.pot a).scale amp).val R z φ t ∧
    HomogeneousSphere.cRforce amp (a ^ 2) (a ^ 3) R z = ((HomogeneousSphere.pot a).scale amp).Rforce R z φ t ∧
    HomogeneousSphere.czforce amp (a ^ 2) (a ^ 3) R z = ((HomogeneousSphere.pot a).scale amp).zforce R z φ t ∧
    HomogeneousSphere.cR2deriv amp (a ^ 2) (a ^ 3) R z = ((HomogeneousSphere.pot a).scale amp).R2deriv R z φ t ∧
    HomogeneousSphere.cz2deriv amp (a ^ 2) (a ^ 3) R z = ((HomogeneousSphere.pot a).scale amp).z2deriv R z φ t ∧
    HomogeneousSphere.cRzderiv amp (a ^ 2) (a ^ 3) R z = ((HomogeneousSphere.pot a).scale amp).Rzderiv R z φ t := by
  refine ⟨?_, ?_, ?_, ?_, ?_, ?_⟩
  · apply HomogeneousSphere.cEval_eq <;> assumption
  · apply HomogeneousSphere.cRforce_eq <;> assumption
  · apply HomogeneousSphere.czforce_eq <;> assumption
  · apply HomogeneousSphere.cR2deriv_eq <;> assumption
  · apply HomogeneousSphere.cz2deriv_eq <;> assumption
  · apply HomogeneousSphere.cRzderiv_eq <;> assumption
example : HomogeneousSphere.cEval 3 (2 ^ 2) (2 ^ 3) 1 1 = ((HomogeneousSphere.pot 2).scale 3).val 1 1 0 0 :=
  (C51_HomogeneousSphere 3 2 1 1 0 0 (by norm_num)).1

/-- HomogeneousSphere, planar functions (`z = 0`). -/
theorem C51_HomogeneousSphere_planar (amp a R φ t : ℝ) (hR : 0 < R) :
    HomogeneousSphere.cPlanarRforce amp (a ^ 2) (a ^ 3) R = ((HomogeneousSphere.pot a).scale amp).Rforce R 0 φ t ∧
    HomogeneousSphere.cPlanarR2deriv amp (a ^ 2) (a ^ 3) R = ((HomogeneousSphere.pot a).scale amp).R2deriv R 0 φ t := by
  refine ⟨?_, ?_⟩
  · apply HomogeneousSphere.cPlanarRforce_eq <;> assumption
  · apply HomogeneousSphere.cPlanarR2deriv_eq <;> assumption
example : HomogeneousSphere.cPlanarRforce 3 (2 ^ 2) (2 ^ 3) 1 = ((HomogeneousSphere.pot 2).scale 3).Rforce 1 0 0 0 :=
  (C51_HomogeneousSphere_planar 3 2 1 0 0 (by norm_num)).1

/-- DehnenSphericalPotential (class with its `_specialSelf` dispatch): forces, second derivatives
and density of the C code agree with Python for every α. -/
theorem C51_Dehnen (amp a α R z φ t : ℝ) (ha : 0 < a) (h3 : α ≠ 3) (h : 0 < R ^ 2 + z ^ 2) :
    Dehnen.cRforce amp a α R z = ((Dehnen.cls a α).scale amp).Rforce R z φ t ∧
    Dehnen.czforce amp a α R z = ((Dehnen.cls a α).scale amp).zforce R z φ t ∧
    Dehnen.cR2deriv amp a α R z = ((Dehnen.cls a α).scale amp).R2deriv R z φ t ∧
    Dehnen.cz2deriv amp a α R z = ((Dehnen.cls a α).scale amp).z2deriv R z φ t ∧
    Dehnen.cRzderiv amp a α R z = ((Dehnen.cls a α).scale amp).Rzderiv R z φ t ∧
    Dehnen.cDens amp a α R z = ((Dehnen.cls a α).scale amp).dens R z φ t :=
  ⟨Dehnen.cls_cRforce amp ha h, Dehnen.cls_czforce amp ha h, Dehnen.cls_cR2deriv amp ha h3 h,
    Dehnen.cls_cz2deriv amp ha h3 h, Dehnen.cls_cRzderiv amp ha h3 h, Dehnen.cls_cDens amp ha h⟩
example : Dehnen.cRforce 3 2 1 1 1 = ((Dehnen.cls 2 1).scale 3).Rforce 1 1 0 0 :=
  (C51_Dehnen 3 2 1 1 1 0 0 (by norm_num) (by norm_num) (by norm_num)).1

/-- DehnenSphericalPotential, planar functions. -/
theorem C51_Dehnen_planar (amp a α R φ t : ℝ) (ha : 0 < a) (h3 : α ≠ 3) (hR : 0 < R) :
    Dehnen.cPlanarRforce amp a α R = ((Dehnen.cls a α).scale amp).Rforce R 0 φ t ∧
    Dehnen.cPlanarR2deriv amp a α R = ((Dehnen.cls a α).scale amp).R2deriv R 0 φ t :=
  ⟨Dehnen.cls_cPlanarRforce amp ha h3 hR, Dehnen.cls_cPlanarR2deriv amp ha h3 hR⟩
example : Dehnen.cPlanarRforce 3 2 1 1 = ((Dehnen.cls 2 1).scale 3).Rforce 1 0 0 0 :=
  (C51_Dehnen_planar 3 2 1 1 0 0 (by norm_num) (by norm_num) (by norm_num)).1

/-- DehnenSphericalPotential, value. The full claim is for every 0 ≤ α < 3; it fails at α = 2
(`C51_Dehnen_Eval_fails`), so the proved part excludes α = 2. -/
theorem C51_Dehnen_Eval_partial (amp a α R z φ t : ℝ) (ha : 0 < a) (h2 : α ≠ 2) (h3 : α ≠ 3)
    (h : 0 < R ^ 2 + z ^ 2) :
    Dehnen.cEvalFinite amp a α R z = some (((Dehnen.cls a α).scale amp).val R z φ t) := by
  have : ¬ a * (2 - α) * (3 - α) = 0 := by
    simp [ha.ne', sub_eq_zero, h2.symm, h3.symm]
  rw [Dehnen.cEvalFinite, if_neg this]
  exact congrArg some (Dehnen.cls_cEval amp ha h h2)
example : Dehnen.cEvalFinite 3 2 1 1 1 = some (((Dehnen.cls 2 1).scale 3).val 1 1 0 0) :=
  C51_Dehnen_Eval_partial 3 2 1 1 1 0 0 (by norm_num) (by norm_num) (by norm_num) (by norm_num)

/-- Disagreement: for α = 2 the C evaluation of the potential divides by zero at every point, while
the Python object returns the (finite) Jaffe value. -/
theorem C51_Dehnen_Eval_fails (amp a R z φ t : ℝ) :
    Dehnen.cEvalFinite amp a 2 R z ≠ some (((Dehnen.cls a 2).scale amp).val R z φ t) := by
  simp [Dehnen.cEvalFinite]

/-- Disagreement: `KuzminDiskPotentialPlanarR2deriv` has the opposite sign of the Python
`R2deriv` at `z = 0`, so they differ wherever the derivative is non-zero; concretely at
`R = 1`, `a = 1`, `amp = 1`. -/
theorem C51_KuzminDisk_planarR2deriv_fails :
    KuzminDisk.cPlanarR2deriv 1 1 1 ≠ ((KuzminDisk.pot 1).scale 1).R2deriv 1 0 0 0 := by
  intro h
  have h' : KuzminDisk.cPlanarR2deriv 1 1 1 = 1 * KuzminDisk.R2deriv 1 1 0 := h
  rw [KuzminDisk.cPlanarR2deriv_eq_neg] at h'
  have h0 : KuzminDisk.R2deriv 1 1 0 = 0 := by linarith
  have h2 : (0 : ℝ) < 2 := by norm_num
  unfold KuzminDisk.R2deriv KuzminDisk.denom at h0
  norm_num at h0
  rw [show (-(3 / 2) : ℝ) = -(5 / 2) + 1 by norm_num, Real.rpow_add h2, Real.rpow_one] at h0
  have := Real.rpow_pos_of_pos h2 (-(5 / 2))
  linarith

/-- What does hold for `KuzminDiskPotentialPlanarR2deriv` (the full claim would have no minus sign). -/
theorem C51_KuzminDisk_planarR2deriv_partial (amp a R φ t : ℝ) :
    KuzminDisk.cPlanarR2deriv amp a R = -((KuzminDisk.pot a).scale amp).R2deriv R 0 φ t :=
  KuzminDisk.cPlanarR2deriv_eq_neg amp a R
example : KuzminDisk.cPlanarR2deriv 2 1 1 = -((KuzminDisk.pot 1).scale 2).R2deriv 1 0 0 0 :=
  C51_KuzminDisk_planarR2deriv_partial 2 1 1 0 0

/-- LogarithmicHaloPotential, axisymmetric (`b = none`) and triaxial. -/
theorem C51_LogarithmicHalo (amp q c R z φ t : ℝ) (b : Option ℝ) (hb : ∀ x ∈ b, x ≠ 0) :
    LogarithmicHalo.cEval amp q c (LogarithmicHalo.cArg b) R z φ = ((LogarithmicHalo.pot q c b).scale amp).val R z φ t ∧
    LogarithmicHalo.cRforce amp q c (LogarithmicHalo.cArg b) R z φ = ((LogarithmicHalo.pot q c b).scale amp).Rforce R z φ t ∧
    LogarithmicHalo.czforce amp q c (LogarithmicHalo.cArg b) R z φ = ((LogarithmicHalo.pot q c b).scale amp).zforce R z φ t ∧
    LogarithmicHalo.cphitorque amp q c (LogarithmicHalo.cArg b) R z φ = ((LogarithmicHalo.pot q c b).scale amp).phitorque R z φ t ∧
    LogarithmicHalo.cR2deriv amp q c (LogarithmicHalo.cArg b) R z φ = ((LogarithmicHalo.pot q c b).scale amp).R2deriv R z φ t ∧
    LogarithmicHalo.cz2deriv amp q c (LogarithmicHalo.cArg b) R z φ = ((LogarithmicHalo.pot q c b).scale amp).z2deriv R z φ t ∧
    LogarithmicHalo.cRzderiv amp q c (LogarithmicHalo.cArg b) R z φ = ((LogarithmicHalo.pot q c b).scale amp).Rzderiv R z φ t ∧
    LogarithmicHalo.cphi2deriv amp q c (LogarithmicHalo.cArg b) R z φ = ((LogarithmicHalo.pot q c b).scale amp).phi2deriv R z φ t ∧
    LogarithmicHalo.cRphideriv amp q c (LogarithmicHalo.cArg b) R z φ = ((LogarithmicHalo.pot q c b).scale amp).Rphideriv R z φ t ∧
    LogarithmicHalo.czphideriv amp q c (LogarithmicHalo.cArg b) R z φ = ((LogarithmicHalo.pot q c b).scale amp).phizderiv R z φ t ∧
    LogarithmicHalo.cDens amp q c (LogarithmicHalo.cArg b) R z φ = ((LogarithmicHalo.pot q c b).scale amp).dens R z φ t :=
  ⟨LogarithmicHalo.cEval_eq _ _ _ hb _ _ _, LogarithmicHalo.cRforce_eq _ _ _ hb _ _ _,
    LogarithmicHalo.czforce_eq _ _ _ hb _ _ _, LogarithmicHalo.cphitorque_eq _ _ _ hb _ _ _,
    LogarithmicHalo.cR2deriv_eq _ _ _ hb _ _ _, LogarithmicHalo.cz2deriv_eq _ _ _ hb _ _ _,
    LogarithmicHalo.cRzderiv_eq _ _ _ hb _ _ _, LogarithmicHalo.cphi2deriv_eq _ _ _ hb _ _ _,
    LogarithmicHalo.cRphideriv_eq _ _ _ hb _ _ _, LogarithmicHalo.czphideriv_eq _ _ _ hb _ _ _,
    LogarithmicHalo.cDens_eq _ _ _ hb _ _ _⟩
example : LogarithmicHalo.cEval 2 1 1 (LogarithmicHalo.cArg (some 3)) 1 1 1 =
    ((LogarithmicHalo.pot 1 1 (some 3)).scale 2).val 1 1 1 0 :=
  (C51_LogarithmicHalo 2 1 1 1 1 1 0 (some 3) (by simp)).1

/-- LogarithmicHaloPotential, planar functions (where the argument of the logarithm is not 0). -/
theorem C51_LogarithmicHalo_planar (amp q c R φ t : ℝ) (b : Option ℝ) (hb : ∀ x ∈ b, x ≠ 0)
    (ha : LogarithmicHalo.arg q c b R 0 φ ≠ 0) :
    LogarithmicHalo.cPlanarRforce amp c (LogarithmicHalo.cArg b) R φ = ((LogarithmicHalo.pot q c b).scale amp).Rforce R 0 φ t ∧
    LogarithmicHalo.cPlanarphitorque amp c (LogarithmicHalo.cArg b) R φ = ((LogarithmicHalo.pot q c b).scale amp).phitorque R 0 φ t ∧
    LogarithmicHalo.cPlanarR2deriv amp c (LogarithmicHalo.cArg b) R φ = ((LogarithmicHalo.pot q c b).scale amp).R2deriv R 0 φ t ∧
    LogarithmicHalo.cPlanarphi2deriv amp c (LogarithmicHalo.cArg b) R φ = ((LogarithmicHalo.pot q c b).scale amp).phi2deriv R 0 φ t ∧
    LogarithmicHalo.cPlanarRphideriv amp c (LogarithmicHalo.cArg b) R φ = ((LogarithmicHalo.pot q c b).scale amp).Rphideriv R 0 φ t :=
  ⟨LogarithmicHalo.cPlanarRforce_eq _ _ _ hb _ _, LogarithmicHalo.cPlanarphitorque_eq _ _ _ hb _ _,
    LogarithmicHalo.cPlanarR2deriv_eq _ _ _ hb _ _, LogarithmicHalo.cPlanarphi2deriv_eq _ _ _ hb _ _,
    LogarithmicHalo.cPlanarRphideriv_eq _ _ _ hb _ _ ha⟩
example : LogarithmicHalo.cPlanarRforce 2 1 (LogarithmicHalo.cArg (some 3)) 1 0 =
    ((LogarithmicHalo.pot 1 1 (some 3)).scale 2).Rforce 1 0 0 0 :=
  (C51_LogarithmicHalo_planar 2 1 1 1 0 0 (some 3) (by simp)
    (by norm_num [LogarithmicHalo.arg, LogarithmicHalo.Rt2])).1

end Verif
