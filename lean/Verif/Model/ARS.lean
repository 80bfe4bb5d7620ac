import Mathlib.Analysis.SpecialFunctions.Log.Basic
import Mathlib.Data.List.Sort

set_option autoImplicit false

/-!
# Adaptive rejection sampling (`galpy/util/ars.py`)

Model of `setup_hull`, `sample_hull`, `evaluate_hull`, `update_hull`, `sampleone` and `ars`.

Simplifications, valid for every definition below:

* floating-point numbers are real numbers;
* a numpy array of length `n` is a function `ℕ → ℝ`, of which only the first `n` entries (or
  `n - 1` for the arrays of intersections) are meaningful; the length is stored in the hull;
* `hx(x, hxparams)` and `hpx(x, hxparams)` are the functions `h` and `hp` with the parameters
  filled in;
* the calls to `stats.uniform.rvs()` read successive entries of a given sequence `us`;
* a hull with an infinite or undefined entry, which is what a division by zero produces in
  numpy, is the value `none`;
* the smallest floating-point number, which `evaluate_hull` uses as "minus infinity", is
  `none` (so that its exponential is zero, which is what the underflow gives).
-/

noncomputable section

namespace Verif.ARS

/-- The list that represents a hull: `[cu, xs, hxs, hpxs, zs, scum, hus]`
(`galpy/util/ars.py` 169-176), together with the number of abscissae. -/
structure Hull where
  /-- `len(hull[1])` -/
  n : ℕ
  /-- `hull[0]` -/
  cu : ℝ
  /-- `hull[1]` -/
  xs : ℕ → ℝ
  /-- `hull[2]` -/
  hxs : ℕ → ℝ
  /-- `hull[3]` -/
  hpxs : ℕ → ℝ
  /-- `hull[4]` -/
  zs : ℕ → ℝ
  /-- `hull[5]` -/
  scum : ℕ → ℝ
  /-- `hull[6]` -/
  hus : ℕ → ℝ

/-- The arguments `domain` and `isDomainFinite` of `ars` (`galpy/util/ars.py` 36-48): the lower
and upper limit, when there is one. -/
structure Domain where
  /-- `domain[0]` if `isDomainFinite[0]` -/
  lo : Option ℝ
  /-- `domain[1]` if `isDomainFinite[1]` -/
  hi : Option ℝ

/-- The abscissa where two tangents meet (`galpy/util/ars.py` 133-135, 401-403, 417-419,
425-433). -/
def meet (x₁ h₁ p₁ x₂ h₂ p₂ : ℝ) : ℝ := (h₂ - h₁ - x₂ * p₂ + x₁ * p₁) / (p₁ - p₂)

/-- Area below the exponential of the first tangent (`galpy/util/ars.py` 140-147, 445-455). -/
def firstArea (D : Domain) (xs hxs hpxs hus : ℕ → ℝ) : ℝ :=
  match D.lo with
  | some a => 1 / hpxs 0 * (Real.exp (hus 0) - Real.exp (hpxs 0 * (a - xs 0) + hxs 0))
  | none => 1 / hpxs 0 * Real.exp (hus 0)

/-- Area below the exponential of the tangent at an abscissa that is neither the first nor the
last (`galpy/util/ars.py` 148-155, 456-467); `jj` is the loop variable. -/
def midArea (hxs hpxs zs hus : ℕ → ℝ) (jj : ℕ) : ℝ :=
  if hpxs (jj + 1) = 0 then (zs (jj + 1) - zs jj) * Real.exp (hxs (jj + 1))
  else 1 / hpxs (jj + 1) * (Real.exp (hus (jj + 1)) - Real.exp (hus jj))

/-- Area below the exponential of the last tangent (`galpy/util/ars.py` 156-166, 468-480). -/
def lastArea (D : Domain) (nx : ℕ) (xs hxs hpxs hus : ℕ → ℝ) : ℝ :=
  match D.hi with
  | some b => 1 / hpxs (nx - 1) *
      (Real.exp (hpxs (nx - 1) * (b - xs (nx - 1)) + hxs (nx - 1)) - Real.exp (hus (nx - 2)))
  | none => -1 / hpxs (nx - 1) * Real.exp (hus (nx - 2))

/-- The array `scum` before it is summed and normalised (`galpy/util/ars.py` 139-155,
442-467). -/
def segArea (D : Domain) (xs hxs hpxs zs hus : ℕ → ℝ) : ℕ → ℝ
  | 0 => firstArea D xs hxs hpxs hus
  | jj + 1 => midArea hxs hpxs zs hus jj

/-- The second half of `setup_hull` (`galpy/util/ars.py` 139-178) and of `update_hull`
(`galpy/util/ars.py` 442-491), which are the same: the areas, the normalisation and the
cumulative sums. -/
def finish (D : Domain) (nx : ℕ) (xs hxs hpxs zs hus : ℕ → ℝ) : Option Hull :=
  if hpxs 0 = 0 ∨ hpxs (nx - 1) = 0 then none
  else
    let scum₀ := segArea D xs hxs hpxs zs hus
    let cu := lastArea D nx xs hxs hpxs hus + ∑ j ∈ Finset.range (nx - 1), scum₀ j
    some ⟨nx, cu, xs, hxs, hpxs, zs,
      fun j => (∑ i ∈ Finset.range (j + 1), scum₀ i) / cu, hus⟩

/-- `setup_hull` (`galpy/util/ars.py` 81-178). -/
def setupHull (D : Domain) (abcissae : List ℝ) (h hp : ℝ → ℝ) : Option Hull :=
  let nx := abcissae.length
  let xs : ℕ → ℝ := fun i => (abcissae.mergeSort (fun a b => decide (a ≤ b))).getD i 0
  let hxs : ℕ → ℝ := fun i => h (xs i)
  let hpxs : ℕ → ℝ := fun i => hp (xs i)
  let zs : ℕ → ℝ := fun j =>
    meet (xs j) (hxs j) (hpxs j) (xs (j + 1)) (hxs (j + 1)) (hpxs (j + 1))
  let hus : ℕ → ℝ := fun j => hpxs j * (zs j - xs j) + hxs j
  open Classical in
  if ∃ j, j + 1 < nx ∧ hpxs j = hpxs (j + 1) then none
  else finish D nx xs hxs hpxs zs hus

/-- `numpy.insert(a, i, x)` -/
def ins (a : ℕ → ℝ) (i : ℕ) (x : ℝ) : ℕ → ℝ :=
  fun j => if j < i then a j else if j = i then x else a (j - 1)

/-- `a[i] = x` -/
def put (a : ℕ → ℝ) (i : ℕ) (x : ℝ) : ℕ → ℝ := fun j => if j = i then x else a j

/-- `indx = i; while indx < fuel + i and p(indx): indx = indx + 1`
(`galpy/util/ars.py` 279-280, 336-337, 409-411). -/
def scan (p : ℕ → Bool) : ℕ → ℕ → ℕ
  | 0, i => i
  | fuel + 1, i => if p i then scan p fuel (i + 1) else i

/-- `update_hull` (`galpy/util/ars.py` 366-491). -/
def updateHull (H : Hull) (newx newhx newhpx : ℝ) (D : Domain) : Option Hull :=
  let m := H.n - 1
  if newx > H.xs m then
    let newz := meet (H.xs m) (H.hxs m) (H.hpxs m) newx newhx newhpx
    let newhu := H.hpxs m * (newz - H.xs m) + H.hxs m
    if H.hpxs m = newhpx then none
    else finish D (H.n + 1) (ins H.xs H.n newx) (ins H.hxs H.n newhx) (ins H.hpxs H.n newhpx)
      (ins H.zs m newz) (ins H.hus m newhu)
  else
    let indx := scan (fun i => decide (newx > H.xs i)) H.n 0
    let newxs := ins H.xs indx newx
    let newhxs := ins H.hxs indx newhx
    let newhpxs := ins H.hpxs indx newhpx
    if newx < H.xs 0 then
      let newz := meet newx newhx newhpx (H.xs 0) (H.hxs 0) (H.hpxs 0)
      let newhu := newhpx * (newz - newx) + newhx
      if newhpx = H.hpxs 0 then none
      else finish D (H.n + 1) newxs newhxs newhpxs (ins H.zs 0 newz) (ins H.hus 0 newhu)
    else
      let newz1 := meet (H.xs (indx - 1)) (H.hxs (indx - 1)) (H.hpxs (indx - 1)) newx newhx newhpx
      let newz2 := meet newx newhx newhpx (H.xs indx) (H.hxs indx) (H.hpxs indx)
      let newhu1 := H.hpxs (indx - 1) * (newz1 - H.xs (indx - 1)) + H.hxs (indx - 1)
      let newhu2 := newhpx * (newz2 - newx) + newhx
      if H.hpxs (indx - 1) = newhpx ∨ newhpx = H.hpxs indx then none
      else finish D (H.n + 1) newxs newhxs newhpxs
        (put (ins H.zs (indx - 1) newz1) indx newz2) (put (ins H.hus (indx - 1) newhu1) indx newhu2)

/-- `sample_hull` (`galpy/util/ars.py` 239-302) when `stats.uniform.rvs()` returns `u`. -/
def sampleHull (H : Hull) (D : Domain) (u : ℝ) : ℝ :=
  if H.scum 0 ≥ u then
    if H.hpxs 0 = 0 then
      match D.lo with
      | some a => a + u / H.scum 0 * (H.zs 0 - a)
      | none => 100000000
    else H.zs 0 + 1 / H.hpxs 0 *
      Real.log (1 - H.hpxs 0 * H.cu * (H.scum 0 - u) / Real.exp (H.hus 0))
  else
    let len := H.n - 1
    let indx := if len = 1 then 0 else scan (fun i => decide (H.scum i < u)) (len - 1) 1 - 1
    if |H.hpxs (indx + 1)| = 0 then
      if indx ≠ len - 1 then
        H.zs indx + (u - H.scum indx) / (H.scum (indx + 1) - H.scum indx) *
          (H.zs (indx + 1) - H.zs indx)
      else
        match D.hi with
        | some b => H.zs indx + (u - H.scum indx) / (1 - H.scum indx) * (b - H.zs indx)
        | none => 100000
    else H.zs indx + 1 / H.hpxs (indx + 1) *
      Real.log (1 + H.hpxs (indx + 1) * H.cu * (u - H.scum indx) / Real.exp (H.hus indx))

/-- The straight line through `(x₁, h₁)` and `(x₂, h₂)` as written in `evaluate_hull`
(`galpy/util/ars.py` 346-362). -/
def chord (x x₁ h₁ x₂ h₂ : ℝ) : ℝ := ((x₂ - x) * h₁ + (x - x₁) * h₂) / (x₂ - x₁)

/-- The index of the interval computed by `evaluate_hull` (`galpy/util/ars.py` 325-339). -/
def evalIndex (x : ℝ) (H : Hull) : ℕ :=
  if x < H.zs 0 then 0
  else if H.n - 1 = 1 then 1
  else scan (fun i => decide (H.zs i < x)) (H.n - 1 - 1) 1 - 1

/-- `evaluate_hull` (`galpy/util/ars.py` 305-363): the upper hull and the lower hull. -/
def evaluateHull (x : ℝ) (H : Hull) : ℝ × Option ℝ :=
  let indx := evalIndex x H
  let hux := H.hpxs indx * (x - H.xs indx) + H.hxs indx
  let hlx : Option ℝ :=
    if x < H.xs 0 ∨ x > H.xs (H.n - 1) then none
    else if indx = 0 then some (chord x (H.xs 0) (H.hxs 0) (H.xs 1) (H.hxs 1))
    else if indx = H.n - 1 then
      some (chord x (H.xs (H.n - 2)) (H.hxs (H.n - 2)) (H.xs (H.n - 1)) (H.hxs (H.n - 1)))
    else if x < H.xs (indx + 1) then
      some (chord x (H.xs indx) (H.hxs indx) (H.xs (indx + 1)) (H.hxs (indx + 1)))
    else
      some (chord x (H.xs (indx + 1)) (H.hxs (indx + 1)) (H.xs (indx + 2)) (H.hxs (indx + 2)))
  (hux, hlx)

/-- `u < numpy.exp(thishlx - thishux)` (`galpy/util/ars.py` 222). -/
def squeeze (u : ℝ) (e : ℝ × Option ℝ) : Prop :=
  match e.2 with
  | some hlx => u < Real.exp (hlx - e.1)
  | none => u < 0

/-- Whether a candidate is accepted in one turn of the loop of `sampleone`
(`galpy/util/ars.py` 220-229), when the second random number is `u`. -/
def accepts (h : ℝ → ℝ) (H : Hull) (candidate u : ℝ) : Prop :=
  squeeze u (evaluateHull candidate H) ∨
    u < Real.exp (h candidate - (evaluateHull candidate H).1)

/-- The hull and the number of updates after one turn of the loop of `sampleone`
(`galpy/util/ars.py` 222-235). -/
def nextHull (D : Domain) (h hp : ℝ → ℝ) (maxn : ℕ) (H : Hull) (nupdates : ℕ)
    (candidate u : ℝ) : Option (Hull × ℕ) :=
  open Classical in
  if squeeze u (evaluateHull candidate H) then some (H, nupdates)
  else if nupdates < maxn then
    (updateHull H candidate (h candidate) (hp candidate) D).map fun H' => (H', nupdates + 1)
  else some (H, nupdates)

/-- `sampleone` (`galpy/util/ars.py` 181-236).  `us` is the sequence of uniform random numbers
and `fuel` the number of turns of the `while` loop that are followed; `none` if the loop has not
ended by then or a hull is undefined.  The result is the sample, the hull, the number of updates
and the random numbers that have not been used. -/
def sampleone (D : Domain) (h hp : ℝ → ℝ) (maxn : ℕ) :
    ℕ → Hull → ℕ → (ℕ → ℝ) → Option (ℝ × Hull × ℕ × (ℕ → ℝ))
  | 0, _, _, _ => none
  | fuel + 1, H, nupdates, us =>
    let candidate := sampleHull H D (us 0)
    let u := us 1
    let us' : ℕ → ℝ := fun i => us (i + 2)
    match nextHull D h hp maxn H nupdates candidate u with
    | none => none
    | some (H', nupdates') =>
      open Classical in
      if accepts h H candidate u then some (candidate, H', nupdates', us')
      else sampleone D h hp maxn fuel H' nupdates' us'

/-- The loop of `ars` (`galpy/util/ars.py` 70-78). -/
def arsLoop (D : Domain) (h hp : ℝ → ℝ) (maxn fuel : ℕ) :
    ℕ → Hull → ℕ → (ℕ → ℝ) → Option (List ℝ × Hull × ℕ)
  | 0, H, nupdates, _ => some ([], H, nupdates)
  | nsamples + 1, H, nupdates, us =>
    match sampleone D h hp maxn fuel H nupdates us with
    | none => none
    | some (x, H', nupdates', us') =>
      (arsLoop D h hp maxn fuel nsamples H' nupdates' us').map fun r => (x :: r.1, r.2)

/-- `ars` (`galpy/util/ars.py` 36-78). -/
def ars (D : Domain) (abcissae : List ℝ) (h hp : ℝ → ℝ) (nsamples maxn fuel : ℕ)
    (us : ℕ → ℝ) : Option (List ℝ × Hull × ℕ) :=
  match setupHull D abcissae h hp with
  | none => none
  | some H => arsLoop D h hp maxn fuel nsamples H 0 us

/-! ### The densities that are sampled -/

/-- `_h_ars` (`galpy/df/streamdf.py` 3809-3812): logarithm of the density of the frequency offset,
for the parameters `(mO, sO2)`. -/
def streamH (mO sO2 x : ℝ) : ℝ := -0.5 * (x - mO) ^ 2 / sO2 + Real.log x

/-- `_hp_ars` (`galpy/df/streamdf.py` 3815-3818). -/
def streamHp (mO sO2 x : ℝ) : ℝ := -(x - mO) / sO2 + 1 / x

/-- The arguments of the call of `ars` in `streamdf._sample_aAt` (`galpy/df/streamdf.py`
3759-3771): the frequency offset is positive, and the starting abscissae are one standard deviation
away from the mean. -/
def streamSample (mO sO2 : ℝ) (n fuel : ℕ) (us : ℕ → ℝ) : Option (List ℝ × Hull × ℕ) :=
  ars ⟨some 0, none⟩ [mO - √sO2, mO + √sO2] (streamH mO sO2) (streamHp mO sO2) n 100 fuel us

/-- `_ars_hx` (`galpy/df/diskdf.py` 3097-3125) for the exponential surface density with scale
length `hr` (`galpy/df/surfaceSigmaProfile.py`, `expSurfaceSigmaProfile.surfacemass`).  `corr` is
`None`, or the function that `DFcorrection.correct` interpolates, that is the logarithm of the
correction (`galpy/df/diskdf.py` 2893-2916: without `log=True` the exponential is returned). -/
def diskH (hr : ℝ) (corr : Option (ℝ → ℝ)) (x : ℝ) : ℝ :=
  match corr with
  | none => Real.log x + -x / hr
  | some L => Real.log x + -x / hr + Real.exp (L x)

/-- `_ars_hpx` (`galpy/df/diskdf.py` 3128-3155) for the same profile; `dcorr` is the derivative of
the logarithm of the correction, which `DFcorrection.derivLogcorrect` returns. -/
def diskHp (hr : ℝ) (dcorr : Option (ℝ → ℝ)) (x : ℝ) : ℝ :=
  match dcorr with
  | none => 1 / x + -1 / hr
  | some L' => 1 / x + -1 / hr + L' x

/-- The arguments of the call of `ars` in `diskdf.sample` without correction
(`galpy/df/diskdf.py` 2011-2021, 2427-2437). -/
def diskSample (hr : ℝ) (n fuel : ℕ) (us : ℕ → ℝ) : Option (List ℝ × Hull × ℕ) :=
  ars ⟨some 0, none⟩ [0.05, 2] (diskH hr none) (diskHp hr none) n 100 fuel us

end Verif.ARS
