import Verif.Spec.RungeKutta

set_option autoImplicit false

/-!
# Tableaux from the literature

The classical fourth order method, the sixth order method of Butcher (1964) with seven stages that the
comment in bovy_rk.c:171 refers to, and the pair of Dormand and Prince (1980).
-/

namespace Verif

/-- The classical method of order four. -/
def rk4Tableau : Tableau ℚ Unit 4 where
  A _ := ![![0, 0, 0, 0], ![1 / 2, 0, 0, 0], ![0, 1 / 2, 0, 0], ![0, 0, 1, 0]]
  b _ := ![1 / 6, 1 / 3, 1 / 3, 1 / 6]

/-- Butcher's method of order six. -/
def rk6Tableau : Tableau ℚ Unit 7 where
  A _ := ![![0, 0, 0, 0, 0, 0, 0], ![1 / 3, 0, 0, 0, 0, 0, 0], ![0, 2 / 3, 0, 0, 0, 0, 0],
    ![1 / 12, 1 / 3, -1 / 12, 0, 0, 0, 0], ![-1 / 16, 9 / 8, -3 / 16, -3 / 8, 0, 0, 0],
    ![0, 9 / 8, -3 / 8, -3 / 4, 1 / 2, 0, 0], ![9 / 44, -9 / 11, 63 / 44, 18 / 11, 0, -16 / 11, 0]]
  b _ := ![11 / 120, 0, 27 / 40, 27 / 40, -4 / 15, -4 / 15, 11 / 120]

/-- The coefficient matrix of Dormand and Prince. -/
def dopMatrix : Fin 7 → Fin 7 → ℚ :=
  ![![0, 0, 0, 0, 0, 0, 0], ![1 / 5, 0, 0, 0, 0, 0, 0], ![3 / 40, 9 / 40, 0, 0, 0, 0, 0],
    ![44 / 45, -56 / 15, 32 / 9, 0, 0, 0, 0],
    ![19372 / 6561, -25360 / 2187, 64448 / 6561, -212 / 729, 0, 0, 0],
    ![9017 / 3168, -355 / 33, 46732 / 5247, 49 / 176, -5103 / 18656, 0, 0],
    ![35 / 384, 0, 500 / 1113, 125 / 192, -2187 / 6784, 11 / 84, 0]]

/-- The method of order five. -/
def dop5Tableau : Tableau ℚ Unit 7 where
  A _ := dopMatrix
  b _ := ![35 / 384, 0, 500 / 1113, 125 / 192, -2187 / 6784, 11 / 84, 0]

/-- The embedded method of order four. -/
def dop4Tableau : Tableau ℚ Unit 7 where
  A _ := dopMatrix
  b _ := ![5179 / 57600, 0, 7571 / 16695, 393 / 640, -92097 / 339200, 187 / 2100, 1 / 40]

end Verif
