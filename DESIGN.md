# Formal model of galpy: design

## Trusted base

* Lean 4.33.0's kernel, and Mathlib as installed (`/app/mathlib4-4.33.0`).
* Axioms: every theorem uses at most `propext`, `Classical.choice`, `Quot.sound`
  (checked with `#print axioms`; no axiom of our own, no `sorry`, no native
  evaluation).
* The reading of the Python/C source. The code is not run: each Lean definition
  cites the file and lines in `/repo` it transcribes, with its simplifications.
* Floating point. Formulas are transcribed over Mathlib's real numbers `ℝ`;
  rounding, overflow, NaN and infinities are **not** modelled. Theorems about
  formulas are about the exact real-number functions the code denotes.
* Lean/Mathlib totalises functions (`x/0 = 0`, `sqrt` of a negative is 0, `log 0 = 0`).
  Theorems carry the guard under which the Python expression is finite
  (e.g. `0 < R`), so they never rely on the junk value.
* numpy broadcasting: a formula is transcribed for one element; array calls are
  the pointwise lift (stated where a function treats arrays differently).
* Not modelled at all: plotting, repr strings, astropy unit parsing internals,
  SciPy/GSL special functions (`hyp2f1` is Euler's integral, `gamma` Mathlib's function), ODE solver internals other than those listed,
  AMUSE/NEMO export, file formats, SIMBAD lookups.

## Method

* Potentials: a potential is modelled as the record of its evaluation methods
  (`Verif.Pot`), each a real function of `(R, z, phi, t)`.
  The specification (`Verif/Spec`) is stated with Mathlib's `HasDerivAt` only:
  `GradAt` (forces = -gradient of the value), `HessAt` (second-derivative
  methods = derivatives of the gradient), `PoissonAt` (4 pi dens = Laplacian).
  Concrete potentials are transcribed and proved against it, then closure under
  +, scaling and wrappers is proved once for arbitrary potentials.
* Bookkeeping code (flattening, flags, unit decorators, orbit continuation,
  worker pools, crash-safe pickling) is modelled by computable functions or
  labelled transition systems; properties are proved by induction over inputs,
  histories or schedules.
* Where code and property disagree, the negation is proved for the transcribed
  code with a concrete witness and a `_partial` theorem states what does hold.
  Those are listed under "Disagreements found".

## Per property plan

| property | plan |
|---|---|
| C01 | Model each class's `_evaluate/_Rforce/_zforce/_phitorque`; prove `GradAt` by the chain rule. |
| C02 | Same records with second derivatives; prove `HessAt`. |
| C03 | Same records with `_dens`; prove `PoissonAt` by algebra from the Hessian formulas. |
| C04 | Model `_mass`; prove `HasDerivAt mass (4 pi r^2 dens)` and `mass = -r^2 rforce`. |
| C05 | Model the base class over an arbitrary radial profile; prove `GradAt`, `HessAt`, `PoissonAt` for all profiles. |
| C06 | Composite as a list of records; prove evaluation = sum and closure of the specs by induction on the list. |
| C07 | Model `__mul__`/`__truediv__` on objects and composites; prove scaling laws, original untouched. |
| C08 | Computable model of `flatten`/`__add__` on nested lists; prove flatness, order, idempotence, associativity by structural induction. |
| C09 | State machine of construction and `__setitem__`; invariant flags = fold of member flags over all histories. |
| C10 | Model argument checks as functions into `Except`; prove exact characterisation of errors. |
| C11 | Define the derived quantities from a record; prove the calculus identities from `GradAt`/`HessAt`. |
| C12 | Transcribe the nine components; prove equality with iterated Cartesian derivatives of `Phi(sqrt(x^2+y^2), z, atan2(y,x))`. |
| C13 | Chain rule along the radial ray. |
| C14 | Loops as step functions run for any number of passes; prove the result brackets a solution (intermediate value theorem), and termination exactly when a solution lies on the searched side. |
| C15 | Piecewise polynomial; prove range, monotonicity, `HasDerivAt` everywhere incl. joins. |
| C16 | Wrapper record = factor(t) * wrapped; closure of specs. |
| C17 | Rotated record; closure of specs; derivative of E - Omega Lz along a solution is 0. |
| C18 | Derivative of E along any solution (`HasDerivAt` of the trajectory) is 0 for each EOM. |
| C19 | Same for Lz and L. |
| C20 | Equality of rectangular force with the Cartesian gradient; transport of solutions. |
| C21 | Transcribe the matrix; prove it is the derivative of the rectangular force. |
| C22 | Model drift/kick over an arbitrary module; prove reversibility by induction on steps, symplecticity via the derivative matrix identity. |
| C23 | Model the time grid loop over lists; prove lengths/first element/interval filling. |
| C24 | Transcribe coefficients as exact reals; local order by B-series over rooted trees (theory proved, order conditions evaluated by the kernel); drivers as loops; adaptive loop terminates by a lexicographic measure. |
| C25 | Rotation matrix orthogonality + atan2/arcsin inversion. |
| C26 | Model the conversions with `Complex.arg`-style atan2; prove both compositions are the identity. |
| C27 | Matrix algebra with the rotation determined by Zsun/Xsun; both compositions identity. |
| C28 | As C26. |
| C29 | `HasDerivAt` of the outputs along every differentiable curve of inputs equals the matrix applied to the velocity. |
| C30 | Hyperbolic/trigonometric inversion; kinetic-energy identity. |
| C31 | Transcribe the factors; prove the algebra. |
| C32 | Model the decorator's decision as a computable function; prove the specification. |
| C33 | State machine; invariant over histories. |
| C34 | Decision function; symmetric, reflexive, rejects. |
| C35 | Orbit store as indexed families; indexing = composition with an index map. |
| C36 | State machine of integrate calls with an abstract flow; invariant over all histories. |
| C37 | Same state machine with attribute presence; reachable error states (disagreement). |
| C38 | Crash-point semantics of `_integrate_impl` (disagreement). |
| C39 | Transcribe the rewriting of method strings; decision theorem. |
| C40 | Transcribe the post-processing; phase-space point equality (disagreement). |
| C41 | Workers/queue as transition system; result independent of schedule. |
| C42 | Transition system with crash points; invariant. |
| C43 | Maps of sections; idempotence and preservation. |
| C44 | Transcribe the recurrence; linearity, exactness. |
| C45 | Real analysis identity. |
| C46 | Matrix algebra (disagreement at the antiparallel vector). |
| C47 | Involution on state vectors. |
| C48 | Algebraic identities. |
| C49 | Transcribe both maps; inverse both ways, canonical (area-preserving derivative), linear angle along every solution. |
| C50 | Algebra of the isochrone Hamiltonian; `HasDerivAt`; angles along every solution of the equations of motion; uniqueness for Kepler equation. |
| C51 | Transcribe C formulas; equality with Python records. |
| C52 | Reduced records; chain rule. |
| C53 | As C01 in one dimension. |
| C54 | As C01 in two dimensions. |
| C55 | Matrix chain rule for an arbitrary wrapped potential. |
| C56 | Second derivative of the rotating-frame trajectory. |
| C57 | Transcribe (disagreement: time is not passed on). |
| C58 | Closed forms; logarithmic derivatives by `HasDerivAt`; collisionless Boltzmann equation; moments as integrals. |
| C59 | Moments as integrals over velocity space; Eddington, Osipkov-Merritt and constant-anisotropy inversions by Abel/Beta integrals and differentiation under the integral; closed forms by hypergeometric series. |
| C60 | Decision theorem. |
| C61 | Python index and slice semantics on the flattened member list, all reachable combinations. |
| C62 | Mass and surface density as integrals of the density: divergence theorem on balls, shells and cylinders. |
| C63 | Image of the uniform law under the sampling formulas; compare with the density in velocity space. |
| C64 | The auxiliary function from its derivative and its limit; dominated convergence of the quadrature for far points. |
| C65 | Equations in the angle against Newton's equations by reparametrisation; driver as a list program over an exact integrator. |
| C66 | Decorator as a map on argument tuples; commutation with unit change. |
| C67 | Covariance of a linear(ised) map; compare with the matrix product. |
| C68 | Plane trigonometry with `atan2`; both compositions. |
| C69 | Decorators as functions into `Except`; decision theorem. |
| C72 | The class's methods at amplitude 1 and the amplitude as separate data; `normalize` as the update of the amplitude; the sum over a list by induction. |
| C73 | `brentq` as the relation 'raises iff the ends have equal signs, else returns a zero in the bracket'; monotonicity of the mean density and of the rotation curve from the sign of derivatives; numerical constants by rational bounds on logarithms. |
| C74 | The constructor as a function from the way the scale is given to amplitude and scale; `fsolve` returns a zero of its function; documented profiles as the specification. |
| C75 | The Jeans integral as an exact improper integral; derivative of the tail integral and of the integrating factor; uniqueness from the limit; line-of-sight projection by substitution; logarithmic halo in closed form. |
| C76 | The object as a record with setters, the force as a function of state and arguments; error function and cosine integral with their derivatives; sign of the coefficient by monotonicity; C cache invariant by induction; Jacobian along curves by the chain rule. |
| C77 | Quadratures as exact integrals (singular at the turning points), `brentq` as a relation; the motion as a solution of Newton's equations; derivative of sine and cosine of the phase, extended over the turning points; uniqueness of the lift; averages over a period. |
| C78 | Prolate spheroidal coordinates; separation of the equations of motion; turning-point searches with `brentq` as a relation; quadratures after the `chi` substitution as exact integrals; phases of both librations in a common time; linear algebra for frequencies and angles. |
| C79 | Arguments as numbers or arrays; numpy's broadcasting and the explicit axis of the sum transcribed; equality with the list of values at the single positions. |
| C80 | Object orbit as arbitrary functions of time, kernel as an arbitrary record of methods; chain rule through the horizontal distance; C splines as functions passing through the orbit. |
| C81 | Closed forms and substitution transcribed for one star; specification: improper integral of the acceleration along two straight lines; antiderivatives and limits, rotation invariance from C46. |
| C82 | Hull as arrays with a length, branch by branch; specification: infimum of tangents and integrals of its exponential; invariant over all updates by induction; change of variables from the uniform number to the candidate; rejection loop with an arbitrary sequence of random numbers. |
| C83 | `__call__` branch by branch with an abstract orbit integrator; specification: exact integrator of the equations of motion; uniqueness of solutions of ODEs gives constancy along orbits and the shift in time used for lists; counterexamples with explicit orbits. |
| C84 | Grid sums over arbitrary finite grids; specification: weighted mean and covariance, principal axes, derivatives of the mean velocity field in rectangular coordinates; chain rule. |
| C85 | Both branches of the one-dimensional integrals; specification: integral of the density along a line in velocity space; change of variables without regularity assumptions; limit by monotone covers. |
| C86 | The closed forms branch by branch; specification: integrals of `pOparapar` over all frequencies; truncated Gaussian moments by antiderivatives, change of variables time = angle / frequency, Fubini for the perpendicular angle. |
| C87 | Break points, selection of the lower limit and sums as in the code; specification: integral of the kicked distribution; induction over the entries for the selection, affine substitution per interval, moments by recurrence and the binomial theorem for the higher orders. |
| C88 | The three quadratures and the particle sums entry by entry, `leggauss` as an arbitrary function returning Gauss-Legendre rules; specification: the public density of the expansion with given coefficients, basis functions as expansions with one coefficient; orthogonality and norms of Gegenbauer and Legendre polynomials by recurrences, degree of the integrand for exactness, square of the node polynomial for the counterexample, induction over batches. |
| C90 | The function of the actions, Gauss-Legendre sums as lists, Monte Carlo means of given draws, direct integrals; specification: Binney's formula, integrals over velocity boxes, normal expectations; Stone-Weierstrass for convergence of the product rules, substitution in integrals |
| C91 | Right-hand sides, arrays and scales as in the code, `solve_ivp` an arbitrary solver, splines arbitrary functions; specification: velocity integral, solution of Poisson's equation from the centre to the edge; antiderivative of the lowered Maxwellian, continuity argument for the sign of the derivative, inverse function for the system in `W`, joining of one-sided derivatives. |
| C92 | Python and C radial functions with both branches, constructor, `from_nfw` with an arbitrary root finder; specification: documented density and its integral, limit of the enclosed mass; exponential integral with sharp bounds, Taylor bounds, strict monotonicity of the total mass in a/rc. |
| C93 | Stencils as in the code for an arbitrary value function; specification: chains of derivatives; Taylor's theorem with remainder by induction, mean value theorem for the mixed stencils. |
| C94 | The adiabatic formulas on top of the spherical and vertical ones (C77), with the correction by `gamma` in `L`, `E` and the searches; separable potentials by reduction to C77; counterexamples with a point mass plus a vertical oscillator. |
| C95 | The wrapper branch by branch in Python and C, with the constant `1e-12` as a parameter; derivatives by the chain rule through the derivatives of the prolate spheroidal coordinates, the effect of the constant bounded separately; agreement in the plane and on the spheroid and the fixed points by algebra; a counterexample for potentials that depend on time. |
| C96 | The three contraction maps on the grid with linear interpolation by recursion over the nodes, fixed points as hypotheses; existence by the intermediate value theorem, uniqueness and order by monotonicity; the resulting potential on top of the model of interpSphericalPotential with the spline as a parameter that interpolates; the unused amplitude as a counterexample. |
| C97 | The constants and `fQ` as coded, on top of the models of the Osipkov-Merritt and power-law classes; each term is a beta integral over the speed; the sum divided by `1 + r²/ra²` is the density. Outside `γ > α/2 + 1` the sign of the gamma function gives negative values, and a change of variables the divergence of the integral. |
| C98 | `_setup_rot`, `_sample_tail` and both `spray_df` for one particle, random numbers as arguments. The two rotations are shown to be the components along the three directions of the orbit and back, with the sign of the second as a parameter; it is `1` except for retrograde orbits in the plane, where the rotation is `-1`. The tidal radius is that on the first axis at the distance of the progenitor: right in spherical potentials and for progenitors in the plane of axisymmetric ones, with a flattened halo as counterexample. |
| C99 | `_parse_stripping_pdf` after the detection of units: cumulative sums, running maximum, indices of the distinct values, linear interpolation. The kept nodes are strictly increasing, so the interpolation is the inverse there (induction); a tie keeps its first index, and continuity gives times inside the interval without stripping. |
| C100 | `dopri853core` pass by pass with the coefficients as a parameter, stopped after a given number of passes; times as the list still to be written. Invariant: the slope kept is that of the current state, the times left are not before it, the rows written are points of the accepted steps. Shift and reversal are a simulation between two runs. The coefficients of the file are rationals; sums of their products are compared with the exact values in the kernel (`decide +kernel`), the theorems hold for every polynomial, matrix and step. Non-linear equations: the order conditions of all trees with at most 8 nodes, with the B-series theorem of C24; the clock is a second part of the equation whose coefficients are those of the file up to their rounding. |
| C89 | Parsing of the descriptions with exceptions as values, lists of pairs of arbitrary functions, folds as in the code; specification: Laplacian of the closed-form part by `deriv`, the public density of an expansion (C88); algebra of the folds, C88 for the coefficients, induction over lists for parsing. |
| C71 | The object's memory as a state, each method as a state transformer; invariant 'what is remembered is right' by induction over the calls. |
| C70 | The wrappers as functions from a record of methods to a record of methods; chain rule along the substituted coordinate; C functions compared term by term; the public evaluation of the wrapped second derivative through the conversion decorator. |

## What was reached

The status of each property and what is missing from the partial ones is in
`MANIFEST.json` (`note`). The table below is the same text.

| property | status | note |
|---|---|---|
| C01 | partial | Proved for each modelled closed-form potential class (one theorem per class, every parameter and regular point); remaining galpy potential classes are not modelled yet. AnyAxisymmetricRazorThinDiskPotential: for every surface density of finite mass, off the plane z=0 (on it the code takes principal values, not covered). SCFPotential: every coefficient array, static or interpolated in time, every R>0. DiskSCFPotential (and every sum of pairs Sigma(r) h(z) with an expansion): axisymmetric targets and general ones, every R>0 off the centre. TwoPowerSphericalPotential with any exponents: inner slope below 3; value and forces for outer slope 3 (inner slope 2 excepted, where the value is 0/0: C01_TwoPower_two_three_fails) and for the closed forms; for the other outer slopes above 3 the value is the potential 1e-11 further out, with the resulting error bound (C01_TwoPower_shift_partial, C01_TwoPower_shift_fails); the value for outer slopes below 3 is not covered. TwoPowerTriaxialPotential: inner slope 2 or at most 2-1e-10, every outer slope above 2 (the value for inner slopes between 2 and 3 is not covered). |
| C02 | partial | As C01: one theorem per modelled class; remaining classes not modelled. AnyAxisymmetricRazorThinDiskPotential: off the plane for \|z\| >= 1e-9, below which the code substitutes the value at z=0. SCFPotential: off the axis where sin(theta)^2 >= 1e-14 or M<=1; nearer to the axis the code takes the direction of another point and phi2deriv is wrong by a factor above 1000 (C02_SCF_fails). The C functions of the same class do not do this and are the Hessian for every R>0 (C02_SCF_C). DiskSCFPotential: all second derivatives for axisymmetric targets; for general ones the mixed azimuthal derivatives do not exist in the code and are not covered (C02_DiskExpansion_nonaxi_partial). TwoPowerSphericalPotential: second derivatives against the forces for every inner slope below 3 and every outer slope. |
| C03 | partial | As C01: one theorem per modelled class; remaining classes not modelled. The density of SpiralArmsPotential violates Poisson equation (C03_SpiralArms_fails; missing square in one term, exact difference in C03_SpiralArms_partial). AnyAxisymmetricRazorThinDiskPotential: also Newton's potential of the disk, the jump 4 pi Sigma of the vertical force across the plane, and the centre. SCFPotential: every coefficient array, every R>0 (Gegenbauer and associated Legendre equations proved). DiskSCFPotential: Poisson equation for every list of pairs and expansion. TwoPowerSphericalPotential: every inner slope below 3 and every outer slope. |
| C04 | proved | Every closed-form _mass among the modelled classes: Plummer, Dehnen family, NFW, Kepler, KuzminDisk, PowerSphericalPotentialwCutoff, TwoPowerSphericalPotential with any exponents; Gauss' theorem, derivative, integral and total. An integer radius given to PowerSphericalPotentialwCutoff.mass returns a truncated integer: C04_PowerSphCut_int_fails. |
| C05 | proved | For every radial profile, default and overridden density. |
| C06 | proved | Every heap reachable by any session of constructor calls, +, *, /, slicing, item assignment; PotExpr theorem covers any nesting. |
| C07 | proved | All combination trees; C07_combination_succeeds/needs characterise when k*c returns. C07_after_assignment_fails records that after an incompatible item-0 assignment k*c raises. |
| C08 | proved | Against an inductive leaf-order specification, for every nested argument and every session. |
| C09 | partial | Invariant over all sessions that avoid the two defects proved in C09_linear_fails/C09_nested_fails (item assignment on a 1D combination; assigning a combination to an integer item). |
| C10 | proved | For the evaluate* functions on every reachable heap: raises PotentialError iff the needed argument is missing. |
| C100 | partial | C100_output: rows, chain of accepted steps, error test, bound on the step, dense output and slopes at both ends, forwards and backwards, for every table of coefficients; C100_time: shift and reversal of time, pass by pass; C100_prefix: later times do not matter when hmax is given. With the coefficients of the file, as exact decimals: C100_quadrature, C100_dense (polynomials in time of degree 7, and 6 inside the steps), C100_linear, C100_linear_dense (the exponential to the 8th power, 7th inside the steps), C100_error (the estimates vanish for degrees 4 and 2). C100_order: eighth order for every analytic equation without explicit time, up to the rounding of the coefficients (all trees of up to 8 nodes to 1e-28). C100_order_time: the same for equations with explicit time, with 1e-12 for the rounding of the coefficients and nodes. Missing: the order of the rows inside steps for non-linear equations. False as stated: C100_nmax_fails, nmax is never looked at and a bounded right-hand side makes every step be rejected for ever. Real numbers for floats; a run that does not end has no rows. |
| C11 | proved | Against circular motion: the circular state solves the equations of motion; frequencies are square roots of second derivatives of the effective potential; terminal velocity, flattening and slope identities. |
| C12 | proved | Minus the Cartesian Hessian of the potential as a function of rectangular coordinates, for every axisymmetric smooth potential; symmetric, trace is minus the Laplacian; non-axisymmetric input raises. |
| C13 | proved | First and second derivative along the ray through the origin, for every smooth potential; tidal radius characterised. |
| C14 | proved | All search loops return intervals that contain a solution (intermediate value theorem) and end whenever a solution exists on the searched side. Disagreements proved: rE never ends for unbound energies, zvc/zvc_range/apocentre/maximum-height searches refuse or return a sentinel for bound orbits beyond a fixed limit. brentq itself is trusted to need a sign change only. |
| C15 | proved | All parameters with tform < tsteady; C15_default_fails shows that with the default tsteady and a non-negative tform the amplitude jumps. |
| C16 | proved | Every time factor (Dehnen, Gaussian, arbitrary); also the rate of change of energy. |
| C17 | proved | Solid-body wrapper fully consistent; corotating wrapper forces and second derivatives consistent; Jacobi integral along every solution. The density of the corotating wrapper is not the Poisson density (C03_corotating_fails). |
| C18 | proved | Every right-hand side (cylindrical, meridional, planar with and without azimuth, linear, rectangular, planar rectangular), every static potential whose forces are its gradient along the solution, every solution on every interval. Exact real arithmetic; the numerical integrators themselves are not part of this statement. |
| C19 | proved | Lz for the cylindrical, planar and rectangular equations in every axisymmetric potential, the whole vector in every spherical one. |
| C20 | proved | Rectangular force is minus the Cartesian gradient; every cylindrical solution is a rectangular one and conversely, also with velocity-dependent forces. |
| C21 | proved | Matrix entries are the partial derivatives of the rectangular force (full, planar, linear), the matrix is symmetric, the symplectic product of two deviations and the determinant of a full set of deviations are constant. |
| C22 | proved | Python leapfrog and C leapfrog/symplec4/symplec6, branch by branch including merged half drifts and stale buffers. Exact reversibility per interval and for whole runs, symplectic derivative, phase-space volume, exact angular momentum for central forces and exact Lz for torque-free forces, deviations equal the derivative of the discrete flow. Exact real arithmetic. |
| C23 | partial | Proved for evenly spaced times for Python and C, for any tolerance, with the interrupt behaviour. The statement for every time array is false (C23_uneven_fails); the caller's check lets through steps of the wrong sign and steps that are lost by truncation (C23_negative_dt_fails, C23_truncation_fails). |
| C24 | proved | Local error of one step of the code by B-series (order conditions for all trees checked by kernel evaluation, the theory proved in Lemmas/BSeries and Lemmas/SplitOrder) for every analytic right-hand side. Drivers: rows, times, steps, termination of the adaptive loop by a lexicographic measure, interrupts. Disagreements: C24_exact_sum_fails (decimals do not sum to one exactly), C24_tolerance_fails (dopr54 accepts errors up to 2.5 tolerances), C24_wrong_sign_fails (dopr54 never ends with a step of the wrong sign, which integrate accepts). Exact arithmetic: no rounding error accumulation, no NaN. |
| C25 | proved | Over the reals for every direction, epoch with any node/pole angles, and custom rotation; round trips hold wherever the latitude of the result is not a pole. C25_custom_reflection_fails: an improper orthogonal custom matrix gives the proper motion with the wrong sign. |
| C26 | proved | Over the reals: positions for every input, inverses off the polar axis, velocities as the rate of change along every differentiable trajectory. |
| C27 | proved | For every Sun position with Xsun different from 0 and every orthogonal additional rotation. C27_sun_on_axis_fails: Xsun = 0 loses the vertical coordinate. The additional rotation galpy builds is orthogonal only up to the rounding of its zeroed entries; that step is numerical and not modelled. |
| C28 | proved | Over the reals, inverses away from the polar axis, velocities as rates of change. |
| C29 | proved | Jacobians of cyl_to_rect, galcenrect_to_XYZ, lbd_to_XYZ, XYZ_to_lbd, galcenrect_to_galcencyl, galsky_to_sky and sky_to_customsky along every curve, with the degree flag. C29_extra_rot_fails and C29_epoch_fails: two Jacobians ignore an option of the map they belong to. |
| C30 | proved | Both coordinate systems, both directions, momenta, Jacobian and Hessian of lambda and nu. C30_oblate_sign_fails and C30_lambdanu_sign_fails: the oblate system and (lambda, nu) lose the sign of z. |
| C31 | proved | All fifteen factor functions, all output quantities and all parsers, for every positive constants and scales. C31_year_fails records that the fallback constants mix the Julian and the tropical year in force_in_10m13kms2. |
| C32 | partial | Decision, factor and precedence for all quantities whose tables of necessary scales agree with their dimension, quantities in fixed units, and None. For angles, number densities and mass per energy the tables are wrong: C32_needless_fails, C32_mass_energy_fails. C32_log_warning_fails: misleading warning. Array-valued scales are not modelled. |
| C33 | partial | Holds right after each call (off/on theorems for every reachable heap); false across item assignment, proved in C33_history_fails. |
| C34 | partial | Rejection is characterised exactly; reflexivity holds; symmetry and transitivity are false (C34_symmetric_fails, C34_transitive_fails), symmetry holds outside a narrow band (C34_symmetric_partial). |
| C35 | proved | Item access (integer, slice, fancy and mask keys) on any orbit array selects exactly the chosen rows of initial conditions, times, trajectories and names, and commutes with integration. C35_scales_fails proves that per-object ro/vo scales are not sliced. |
| C36 | partial | Continuation gives one monotone trajectory of a flow for exact-start calls. Missing: starts that only pass isclose (C36_isclose_fails) and flipped objects (C36_flip_fails) where the property is false of the code. |
| C37 | partial | From every state that is not sliced, deviation-integrated or interrupted, a call with accepted times and a total integrator returns. C37_sliced_fails, C37_dxdv_fails and C37_interrupted_fails prove the property is false of the code in those states. |
| C38 | partial | What a failing integrate call may change is characterised; C38_continued_fails (initial condition lost) and C38_mismatch_fails (times and trajectory disagree) prove the full property is false of the code. |
| C39 | partial | Method choice proved for every method string; C39_ias15_fails and C39_spelling_fails show where the property is false of the code. |
| C40 | partial | Correct for non-negative radii; for every negative radius the returned state is proved wrong (planar: velocity reversed; full: height shifted by pi, position wrong; without azimuth: radial velocity and angular momentum sign wrong). |
| C41 | partial | C41_map, C41_error, C41_died and C41_sound hold for every schedule of the worker processes; C41_terminates and C41_progress bound the number of steps. Disagreements: an empty sequence raises ValueError (C41_empty_fails), a single element gives a lazy iterator (C41_single_fails), mixed types are converted (C41_mixed_fails), the exception raised depends on the schedule (C41_error_order_fails). |
| C42 | partial | C42_atomic_partial: every reachable state when the temporary directory is on the file system of the target. C42_other_file_system_fails: otherwise shutil.move copies and a crash leaves a truncated target. C42_unbound_fails: an interrupt before the file is opened ends with UnboundLocalError. |
| C43 | partial | C43_complete for all file contents; values are kept (C43_values_partial) when no value has a percent sign. C43_percent_fails: an escaped percent sign makes the repair raise; C43_dropped_fails, C43_default_section_fails: unknown keys and values of [DEFAULT] are lost. |
| C44 | proved | Levels, stopping rule and warning (C44_table), linearity, exactness of column k up to degree 2k+1, error bound; C44_tolerance_fails shows that an accuracy below the tolerance is not implied by a normal return. |
| C45 | partial | Proved for two-dimensional arrays along either axis and for axis=None. C45_flat_fails: a one-dimensional array with the default axis=0 returns arr_j + log n elementwise instead of the log of the sum. |
| C46 | partial | Orthogonality, determinant, direction and inverse for every vector not antiparallel to the target, and the parallel case. C46_antiparallel_fails: for the antiparallel vector the code returns -I, whose determinant is -1. |
| C47 | proved | All five phase-space dimensions, both variants of flip, whole objects. |
| C48 | proved | E, ER, Ez, L, Lz, Jacobi against rectangular position, velocity, cross product and rotating-frame energy. |
| C49 | proved | Harmonic oscillator action-angle and inverse: energy, inverse and forward round trips, linear motion, canonical transformation. |
| C50 | proved | Hamiltonian, nonnegativity, frequencies as derivatives, pericentre/apocentre, linear advance of all angles along every solution of Newton's equations, unique solution of Kepler's equation, and both round trips. Disagreements proved separately: Omegaphi of forward and inverse classes at Lphi = 0 (C50_polar_fails), sign of the azimuthal angle for planar orbits with negative angular momentum (C50_planar_retrograde_fails), azimuthal angle ignored by the inverse for planar orbits (C50_inverse_planar_fails). The numerical root finders are not modelled. |
| C51 | partial | C = Python for each modelled potential; disagreements proved: KuzminDisk planar second derivative sign, Dehnen alpha=2 evaluation, second derivatives of ellipsoidal potentials at the centre, dynamical friction beyond maxr, planar functions of a moving object that is not in the plane. SCFPotential: C = Python after the argument parser, including flattened and time-spline coefficients, the time-interval search and the index into the Legendre arrays of both GSL versions; the second derivatives where Python does not take another direction. DiskSCFPotential: the argument blocks are read back pair by pair and the C sums equal Python, including the overflow-safe forms of sech2. TwoPowerSphericalPotential: all C functions for every outer slope and inner slopes below 3 (the value where Python does not switch to a closed-form class). TwoPowerTriaxialPotential: inner slope 2 or at most 2-1e-10; between these C switches to the formula for slope 2. |
| C52 | proved | Point-level model of all four reductions with errors; arbitrary member lists. Object-level (heap) statement for combinations is in C06-C09. |
| C53 | proved | KG and isothermal disk, Python and C. Two documentation disagreements proved: F given as a density has twice the documented density, F given as a second derivative with units needs explicit ro/vo. |
| C54 | partial | All classes proved except: CosmphiDisk mixed derivative inside the break radius for m != 1 (wrong by a factor m, proved), normalisation radius with a break radius (discontinuous, proved), cp/sp with cp<0 and m>=2 (sign flipped, proved), LopsidedDisk ignores r1 (proved), retrograde patterns grow at the wrong time (proved), bar on-axis array path (proved). |
| C55 | partial | RotateAndTiltWrapperPotential, Python and C: the matrix built from each accepted argument combination, value, forces, second derivatives, density and the C cache. The matrix is a rotation taking the requested axis to z and the wrapped potential is evaluated at the documented point (offset applied in the rotated frame), forces and second derivatives are those of the wrapped potential turned back, and Poisson's equation is inherited. Missing: the claim is false for inclination 180 degrees and for an axis opposite to z (mirror image), inclination without galaxy_pa and integer axes raise, sky_pa alone is ignored, the caller's array is modified, a first C call at the origin at t=0 returns 0; all proved as _fails theorems. |
| C56 | partial | NonInertialFrameForce, Python and C: every branch of constructor and evaluation. The force equals the fictitious acceleration of a general rotating and accelerating frame (proved against the second derivative of the transformed motion), the Python cache and the C cache are transparent, the C Jacobian is the derivative of the force. Missing: without a supplied Omegadot the code differentiates numerically, so exactness is only proved for Omega of degree two or less with an error term otherwise; first C call at the origin and two argument combinations disagree (_fails). |
| C57 | partial | The time argument of tdyn is dropped: C57_fails gives a growing Plummer sphere whose dynamical time at t=1 is that of t=0. C57_tdyn_partial: right whenever the mass at t equals the mass at 0; C57_period: for spherical potentials it is the circular period. |
| C58 | partial | Exponential profile, rotation curve, closed forms of the three DFs, logarithmic derivatives (Dehnen, Shu), Boltzmann equation, constancy along orbits, moments, central moments and Oort constants are proved. Missing: counter-rotating orbits of the Shu DF when beta is not zero, derivatives of the Schwarzschild DF and the peak equation for the Shu DF, each refuted by a _fails theorem. |
| C59 | partial | Proved: the moment methods are the documented velocity integrals (all orders except odd tangential, where they fail); anisotropy; density recovery by Eddington inversion, Osipkov-Merritt inversion and the constant-anisotropy inversion for every anisotropy below one, with the Jeans equation, for any halo meeting stated regularity; the closed forms for Plummer, Hernquist (isotropic, Osipkov-Merritt and every constant anisotropy, including the hypergeometric branch) and power laws. Missing: numerical error of quadrature and interpolation; the cut at a finite rmax (the density is then not recovered); NFW closed form (King's model is C91). |
| C60 | partial | Exact acceptance criterion of the dt check and closed form of the automatic grid. The full property fails: the multiple may be zero (C60_zero_multiple_fails), one output time raises, and the evenly-spaced check has an absolute tolerance (C60_evenly_spaced_fails). |
| C61 | proved | All reachable combinations, all indices and slice bounds (step 1). |
| C62 | partial | Proved by the divergence theorem in three dimensions for every smooth axisymmetric potential (ball, shell, cylinder), the Poisson route of surfdens for every potential, the closed forms of six classes, combinations, refusal of non-axisymmetric potentials. Disagreements: closed forms change sign below the plane (C62_negative_z_fails), a combination with a razor-thin disk misses the disk by default (C62_kuzmin_composite_fails), mass(R,z) needs symmetry about the plane (C62_asymmetric_fails). quad is modelled as the exact integral; Masses of the ellipsoidal potentials are volume integrals over the ellipsoid, except PerfectEllipsoid with a different from 1, where the formula is wrong (C62_PerfectEllipsoid_fails). At r = a inside R < a the two-power closed forms are 0/0 and excluded. SCFPotential: mass(r) is the volume integral of dens over the ball for every coefficient array. DiskSCFPotential: the formula of the mass adds the volume integral of the pair densities. TwoPowerTriaxialPotential: the mass for every inner slope below 3. dens: both routes, closed form and Laplacian over 4 pi, give the Laplacian over 4 pi, also for combinations (C62_dens, C62_dens_composite). |
| C63 | partial | Proved: the exact law of the radii (Plummer, Hernquist, power laws; tabulated profiles at every tabulated radius), of the position angles, of the velocity angle of all three families, of the speeds given a speed table inverted exactly, and the geometry of the returned point. Fails as stated: rmin= is ignored by classes with an analytic inverse mass profile, phi= without R and z is ignored. Missing: the error of the two-dimensional interpolation table of speeds and of the tabulated inverse of the velocity angle; the joint law is proved factor by factor, independence of the random numbers is assumed. |
| C64 | partial | Proved for the ellipsoidal classes with closed forms, for TwoPowerTriaxialPotential with inner slopes 1 and 2, and for the spherical two-power potentials with outer slope above 3 or the NFW slopes. Fails for TwoPowerTriaxialPotential with every other inner slope below 2: the constant has Gamma(3-alpha) for Gamma(2-alpha) and the value tends to a constant other than zero (C64_TwoPowerTriaxial_fails). Not covered: inner slopes between 2 and 3, spherical outer slopes up to 3 other than NFW. |
| C65 | partial | Proved: the angle equations (three-dimensional and both planar surfaces) are Newton's equations with a change of parameter, conversely every turning orbit is a solution and its upward crossings are exactly the multiples of 2 pi; coordinates, C equations; the section driver with an exact integrator and a force independent of time returns all crossings in order; brute-force crossings sound and complete between columns. Missing (and false, see the _fails theorems): time-dependent forces, stored times, independence of the other orbits, initial condition within 1e-7 of the surface, scalar t0 with several orbits in Python, columns exactly on the surface. Numerical integration itself is an assumption (exact integrator). |
| C66 | partial | Proved for arguments given by position and the flag by keyword, with the round trips. C66_keyword_fails and C66_position_fails: angles given by keyword are not converted, and the flag given by position is ignored. |
| C67 | partial | Proper motions, cylindrical components and the propagation from distance or parallax are proved. cov_vxyz_to_galcenrect leaves out the reflection of the axes: C67_galcenrect_fails for every position of the sun, C67_galcencyl_fails; C67_galcenrect_partial gives the variances that are right. |
| C68 | proved | Both directions and both round trips. |
| C69 | partial | Inputs of potentials (velocity with unit only when t or M is given: C69_velocity_fails; quantities as positional arguments only lengths: C69_positional_fails), inputs and outputs of action-angle methods and their inverses (tuples; C69_array_fails shows one-dimensional arrays of more than three actions raise IndexError). |
| C70 | partial | Transformation, derivatives, Poisson density, C agreement and the identity with Miyamoto-Nagai proved for every wrapped potential. The code contradicts the property in two ways: KuzminLike second derivatives mix physical and internal units when the wrapped potential has scales set, and CylindricallySeparable ignores the time. |
| C71 | partial | Proved for SoftenedNeedleBar, Ferrers, the ellipsoidal potentials and the two dynamical-friction forces (including their setters): induction over the sequence of calls with the invariant that what is remembered is right. The key of the memory (an md5 digest of the arguments) is modelled as the arguments themselves. Other classes with a memory are not covered yet. SCFPotential: force, Hessian and coefficient memory in Python and the memory of the C functions. |
| C72 | proved | Every potential with nonzero force at R=1; lists by induction; MWPotential2014 and the old MWPotential with their actual parameters. |
| C73 | proved | brentq is modelled as an exact root finder; numbers in internal units. |
| C74 | partial | Half-mass radius, slope and shape are proved; the amplitude is not the documented one with rs or rm2: C74_fails. |
| C75 | proved | jeans.py sigmar and sigmalos with the integrals as the Lebesgue integrals that scipy's quad approximates. Hypotheses (Tracer): positive continuous density, continuous anisotropy and force, convergent integral; shown to hold for the logarithmic halo, where the dispersion is found in closed form. |
| C76 | partial | Chandrasekhar and FDM friction in Python and C. Direction, size, FDM bound and continuity, history independence and the C Jacobians are proved. Partial: pickling (C76_pickle_partial; C76_pickle_fails shows the force beyond maxr changes when a dispersion function was given), and C agreement holds only up to maxr (C51_Chandrasekhar_partial, C51_FDM_partial, C51_Chandrasekhar_fails). The Jacobian is relative to the exact density gradient; the code uses a central difference. |
| C77 | partial | Proved for spherical potentials: exactly one result, constant actions, constant frequencies and linear angles when the radial action is at least 1e-9, radial period, radial action as a time integral, pericentre/apocentre, agreement of the three entry points, circular orbits (vertical and azimuthal angles linear, radial angle fixed at pi). Excluded: polar orbits, the (meaningless) vertical angle of orbits in the plane with negative angular momentum, turning points outside the range of the searches or within 1e-15 of circular. One-dimensional potentials: complete for amplitudes up to 50, where actionsFreqs (not actionsFreqsAngles) has a frequency that is off because of its guard (C77_vertical_freqs_fails). Quadratures are exact integrals, brentq returns an exact zero. |
| C78 | partial | Proved for all Staeckel potentials symmetric about the plane and all bound orbits with simple turning points: actions are the loop integrals, actions and frequencies constant, angles linear, independence of u0, agreement of the entry points, conserved third integral, bounds of EccZmaxRperiRap, recovery of the focal distance, and that KuzminKutuzovStaeckelPotential is such a potential. Left out: points whose momenta are non-zero but within the tolerances (1e-7, 1e-10) of the turning-point searches, orbits closer to circular or planar than the thresholds of the code, fixed-order quadrature, the C version and the frozen-u0 options. The Python version raises an exception at the turning point below the plane (C78_below_fails). |
| C79 | partial | Modelled for SpiralArmsPotential (the bar: C54_DehnenBar_array): elementwise whenever R or z is an array; an array of azimuths at a single R and z is summed over (proved, C79_SpiralArms_fails). Other classes have no explicit array code or are not covered. |
| C80 | proved | For all kernels symmetric about their plane; gradient, Hessian, Poisson and C versions are C01/C02/C03/C51_MovingObject. |
| C81 | partial | Curved streams: proved for Plummer and for every radial force law (general version, exact quadrature), and for Hernquist unless the closest distance is zero or the scale radius (division by zero in the code). Straight streams: proved for stream directions off the y axis by more than the tolerance of the rotation, or along it, and perturber velocities not parallel to the stream. Disagreements proved: parallel velocities give a kick too large by sqrt 2, a stream along -y gets the kick with the wrong sign, integer stream velocities give truncated kicks. |
| C82 | partial | Proved for all histories of updates: hull areas, independence of the order of updates, candidates have exactly the density of the hull, samples stay in the domain, acceptance never exceeds one; exact distribution with two abscissae. With three or more abscissae the code contradicts the property (evaluate_hull compares with the tangent of the wrong abscissa and uses an extrapolated chord): C82_distribution_fails, C82_lower_fails. Also refuted: starting abscissa at the peak (division by zero), and correct=True hands over a derivative that does not belong to the function. Random numbers are real numbers strictly between 0 and 1; termination of the rejection loop (probability one) is not modelled. |
| C83 | partial | One time, steady states, log and derivatives are proved for every force with an exact integrator. Lists of times: with odeint for time-independent forces and lists that do not start with the initial time, with the other methods only for lists ending with it; the rest is false in the code (C83_list_c_fails, C83_list_time_fails, C83_list_first_fails). The accuracy of the numerical integration is not modelled. |
| C84 | proved | Grids are arbitrary finite grids of values; that the values are those of the evolved density is C83. Hierarchical grids and the direct double quadrature are not modelled. |
| C85 | partial | diskdf: proved for all inputs. evolveddiskdf: proved for the density at time 0, which the code always uses; for other times the statement is false (C85_evolved_time_fails). Unit conversion is not part of the model: the integrands call the distribution function with conversion on. |
| C86 | partial | Proved for every parameter: density_par, meanOmega, sigOmega, ptdAngle, pangledAngle (normalisation and second moment), meanangledAngle = 0. meantdAngle and sigtdAngle proved for offsets above three dispersions, as mean over the frequencies within three dispersions (the code truncates there). Fails: meantdAngle below three dispersions (limits exchanged: averages over the complement), sigangledAngle when sigangle dominates (truncated at one dispersion), sigangledAngle(smallest=True) does not use the smallest eigenvalue, pOparapar at angle offset zero counts stars moving the other way. |
| C87 | partial | Proved for any number of equally spaced nodes (the linspace of the code): minOpar, density_par, meanOmega (both ways) are exact for the piecewise-linear kick; gaussxpolyInts moments and the higher-order density for every spline order; no kick gives the smooth model. Fails: higherorder=True in meanOmega has a sign error; density_par(approx=False) is larger by sqrt(2 pi). Not claimed: size of the error made by neglecting second-order terms for splines of order above one. |
| C88 | partial | Proved with any Gauss-Legendre rules (which are shown to exist for every order): spherical expansions are recovered for every number of coefficients; axisymmetric and general ones where 4l+n+N+1 < 2K, which with the default order K covers L up to 4 for every N; recomputation is idempotent; particle and density coefficients are projections on the same basis functions; the symmetric functions agree with the general one; batching over particles and times is exact. Code disagrees (C88_axi_fails): with L = 5 and N >= 12 the default radial order is one too low and the last coefficient is not recovered. Not proved: the quadrature in azimuth, which is replaced by the exact integral; the detection of the number of arguments of the density; the projection of multipole expansions. |
| C89 | partial | Exact for every list of pairs, target and point; the exactness with default orders for residuals in an axisymmetric expansion of at most four multipoles, for more multipoles the default radial order is too low (C88_axi_fails), with sufficient orders for general targets. Numerical error of the azimuthal quadrature is not modelled. |
| C90 | partial | Proved: value, logarithm, normalisation, convergence of moments, means, dispersions, tilt and all marginal distributions, Monte Carlo expectation, scale lengths. Shown to fail, with witnesses: adiabatic moments are a quarter of the integral, Monte Carlo moments lack (2 pi)^(3/2), direct integration covers a quarter of the range and gets the tangential dispersion wrong, arrays outside the grid of guiding radii, nsigma and zmax without effect, check of isochrone action-angle objects. Convergence is in the order of the Gauss-Legendre rules; the rules are assumed exact for polynomials of degree below twice the order. |
| C91 | partial | Proved: velocity integral of the distribution function, potential inside and outside, self-consistency (full velocity integral and the moment method), Poisson's equation, enclosed and total mass, scales, and that with an exact solver the two systems give one solution with the tabulated arrays as its values, for every central value above 1.5e-4. Shown to fail: the right-hand side at the centre is three times the second derivative of the regular solution. Missing: error of solve_ivp and of the splines, existence of the solution, sampling. |
| C92 | partial | Proved for all parameters: constructor, total mass, limits at the centre, comparison with and convergence to the NFW potential, derivatives of the density, existence and uniqueness of the truncation radius for every positive mass, the conversion for masses between 2.1e-6 and 100 amplitudes, error bound of the series near the centre. Missing: within 1e-3 min(a, rc) of the centre the series makes potential and force differ (C01_ExpTruncNFW_fails), bounded by C92_series; masses of 400 amplitudes and more raise although the documentation promises no upper limit (C92_from_nfw_fails). The exponential integral is its definition as an integral, the root finder any that returns a zero in its bracket. |
| C93 | proved | All nine methods, with explicit constants, in real arithmetic: the rounding error, which grows as the step shrinks, is outside. |
| C94 | partial | Separable potentials with gamma=0: everything for orbits whose turning points the searches find and that are not in the plane; radial angles and frequencies for radial actions of at least 1e-9. Other gamma: the radial action at every point with a radial velocity. Counterexamples with the default gamma=1: at a point without radial velocity that moves with the circular velocity the radial action is nought whatever the vertical action (C94_circular_fails); slightly slower and high enough, the pericentre is reported as nought (C94_turning_fails); two points with the same constants of motion of which one has actions and the other raises UnboundError (C94_gamma_fails). |
| C95 | partial | Proved for the model: the forces and second derivatives are the derivatives of the value at every point off the axis if the constant 1e-12 is left out (C95_force, C95_second), and the constant changes them by terms bounded by it (C95_eps); in the plane, on the reference spheroid and at the reference point the value is the wrapped one (C95_plane, C95_spheroid, C95_point); potentials that separate are not changed (C95_fixed); the result is a Staeckel potential in the sense of C78 (C95_staeckel); C equals Python, in the plane too (C95_c, C95_planar_c). C95_time_fails: the time is not passed on to the wrapped potential. Not covered: points on the axis, agreement on the spheroid when it degenerates to the segment between the foci (u0=0), rounding. |
| C96 | partial | Proved: the equations of the three methods have exactly one solution (C96_blumenthal, C96_gnedin, C96_cautun); conservation of radius times mass, order of the shells, mass carried by the shells, direction of the contraction, no change if the baryons follow the halo (C96_blumenthal, C96_direction, C96_gnedin), growth with the baryonic mass (C96_cautun); the grid and default arguments (C96_grid); forces at and beyond the grid and the value at infinity (C96_force). C96_amp_fails: the amplitude is not used. Not covered: convergence of scipy's fixed_point (its result is taken to be a fixed point), the spline between grid points other than that it interpolates, the virial radius, the mass functions of the potentials. |
| C97 | partial | Tracers with gamma > alpha/2 + 1: density (C97_density_partial), anisotropy (C97_beta_partial), sign (C97_sign_partial). A tracer that generates the potential satisfies this always (C97_self). Limit of large ra for all exponents (C97_isotropic). The constructor only asks for gamma > alpha/2: for 3 - alpha/2 < gamma < alpha/2 + 1 the distribution function is negative for small Q (C97_negative_fails) and its integral over velocity does not exist (C97_diverges_fails), for gamma = alpha/2 + 1 the density is too small (C97_edge_fails). Accepted tracers with gamma <= 3 - alpha/2 are not covered. Sampling of radii is in C63. |
| C98 | partial | Both rules in the frame of the orbit for every progenitor whose potential is the same along its direction as along the first axis (every spherical potential, every axisymmetric one in the plane), unless in a retrograde orbit in the plane; tails, means and output coordinates. False as stated: C98_tide_fails (flattened potential, inclined orbit: tidal radius and circular velocity are evaluated in the plane), C98_retrograde_fails and C98_retrograde_sign_fails (wrong signs for retrograde orbits in the plane), C98_units_fails (the vertical offset of fardal15spraydf is dimensionless). Not covered: orbits within 1e-10 of the plane but not in it, stripping_pdf, integration to the present. |
| C99 | partial | Range, and the exact fraction of random numbers giving earlier times (as a Lebesgue measure) at every time of the grid that does not end an interval without stripping; exceptions. False as stated: C99_gap_fails, for every function that vanishes on an interval of the grid before the last stripping, times inside the interval are drawn (numpy.unique keeps the first of tied values). The number of grid steps is arbitrary. Not covered: the detection of units, rounding. |

## Code that is modelled

Each file's definitions carry the lines they transcribe.

| Lean module | source |
|---|---|
| `Model/ARS` | ars.py, diskdf.py, streamdf.py, surfaceSigmaProfile.py |
| `Model/AdiabaticAA` | actionAngleAdiabatic.py, actionAngleSpherical.py, planarPotential.py, Potential.py, verticalPotential.py |
| `Model/Compose` | baseCompositePotential.py, CompositePotential.py, conversion.py, DissipativeForce.py, Force.py, linearCompositePotential.py, linearPotential.py, planarCompositePotential.py, planarDissipativeForce.py, planarForce.py, planarPotential.py, Potential.py |
| `Model/Config` | config.py |
| `Model/Conversion` | actionAngle.py, actionAngleInverse.py, conversion.py |
| `Model/Coords` | coords.py |
| `Model/DF/Disk` | diskdf.py, surfaceSigmaProfile.py |
| `Model/DF/Evolved` | diskdf.py, evolveddiskdf.py |
| `Model/DF/King` | kingdf.py, KingPotential.py, sphericaldf.py |
| `Model/DF/Marginal` | diskdf.py, evolveddiskdf.py |
| `Model/DF/OMPower` | osipkovmerrittPowerLawdf.py |
| `Model/DF/QuasiIso` | quasiisothermaldf.py |
| `Model/DF/Spherical` | constantbetadf.py, constantbetaHernquistdf.py, constantbetaPowerLawdf.py, eddingtondf.py, isotropicHernquistdf.py, isotropicPlummerdf.py, isotropicPowerLawdf.py, osipkovmerrittdf.py, osipkovmerrittHernquistdf.py, Potential.py, SCFPotential.py, sphericaldf.py |
| `Model/DF/Stream` | streamdf.py |
| `Model/DF/StreamGap` | p.c, poly.c, streamgapdf.py |
| `Model/DF/StreamSpray` | streamspraydf.py |
| `Model/DF/StripTimes` | streamspraydf.py |
| `Model/Dop853` | integrateLinearOrbit.py, leung_dop853.py, S.h, tab.c |
| `Model/Dop853Tab` | leung_dop853.py |
| `Model/DynFric` | ChandrasekharDynamicalFrictionForce.c, ChandrasekharDynamicalFrictionForce.py, FDMDynamicalFrictionForce.c, FDMDynamicalFrictionForce.py, Force.py, integrateFullOrbit.py |
| `Model/EOM` | integrateFullOrbit.py, integrateLinearOrbit.py, integratePlanarOrbit.py |
| `Model/Harmonic` | actionAngleHarmonic.py, actionAngleHarmonicInverse.py |
| `Model/Impulse` | streamgapdf.py |
| `Model/Integrators` | integrateFullOrbit.py, integrateLinearOrbit.py, integratePlanarOrbit.py, Orbits.py |
| `Model/IsochroneAA` | actionAngleIsochrone.py, actionAngleIsochroneInverse.py |
| `Model/Jeans` | jeans.py |
| `Model/MassQuant` | CompositePotential.py, Potential.py |
| `Model/NFWVirial` | Potential.py, TwoPowerSphericalPotential.py |
| `Model/NonInertial` | conversion.py, coords.py, Force.py, integratePlanarOrbit.py, NonInertialFrameForce.c, NonInertialFrameForce.py |
| `Model/Normalize` | MiyamotoNagaiPotential.py, mwpotentials.py, Potential.py, PowerSphericalPotentialwCutoff.py |
| `Model/Orbit` | Orbits.py |
| `Model/OrbitState` | integrateFullOrbit.py, integratePlanarOrbit.py, Orbits.py |
| `Model/ParallelMap` | multi.py |
| `Model/Planar/Disks` | CosmphiDiskPotential.c, CosmphiDiskPotential.py, EllipticalDiskPotential.c, EllipticalDiskPotential.py, HenonHeilesPotential.c, HenonHeilesPotential.py, integratePlanarOrbit.py, LopsidedDiskPotential.c, SteadyLogSpiralPotential.c, SteadyLogSpiralPotential.py, TransientLogSpiralPotential.c, TransientLogSpiralPotential.py |
| `Model/Planar/Linear` | integrateLinearOrbit.py, IsothermalDiskPotential.c, IsothermalDiskPotential.py, KGPotential.c, KGPotential.py |
| `Model/Pot/AdiabaticContraction` | AdiabaticContractionWrapperPotential.py, interpSphericalPotential.py |
| `Model/Pot/AnyDisk` | AnyAxisymmetricRazorThinDiskPotential.py, Potential.py |
| `Model/Pot/Burkert` | BurkertPotential.c, BurkertPotential.py |
| `Model/Pot/DehnenBar` | DehnenBarPotential.c, DehnenBarPotential.py, integrateFullOrbit.py, integratePlanarOrbit.py, Potential.py |
| `Model/Pot/DiskExpansion` | d.h, DiskSCFPotential.c, DiskSCFPotential.py, e.h, galpy_potentials.c, integrateFullOrbit.c, integratePlanarOrbit.py, KuijkenDubinskiDiskExpansionPotential.py, p.h, Potential.c, Potential.py |
| `Model/Pot/Ellipsoidal` | EllipsoidalPotential.c, EllipsoidalPotential.py, galpy_potentials.c, integrateFullOrbit.py, integratePlanarOrbit.py, p.c, PerfectEllipsoidPotential.c, PerfectEllipsoidPotential.py, PowerTriaxialPotential.c, PowerTriaxialPotential.py, TriaxialGaussianPotential.c, TriaxialGaussianPotential.py, TwoPowerTriaxialPotential.c, TwoPowerTriaxialPotential.py |
| `Model/Pot/ExpTruncNFW` | ExpTruncNFWPotential.c, ExpTruncNFWPotential.py, integrateFullOrbit.c |
| `Model/Pot/Ferrers` | FerrersPotential.py, p.c |
| `Model/Pot/FlattenedPower` | FlattenedPowerPotential.c, FlattenedPowerPotential.py, integratePlanarOrbit.py |
| `Model/Pot/Isochrone` | IsochronePotential.c, IsochronePotential.py |
| `Model/Pot/KuzminDisk` | KuzminDiskPotential.c, KuzminDiskPotential.py, Potential.py |
| `Model/Pot/KuzminKutuzov` | KuzminKutuzovStaeckelPotential.c, KuzminKutuzovStaeckelPotential.py, Potential.py |
| `Model/Pot/LogarithmicHalo` | integrateFullOrbit.py, integratePlanarOrbit.py, LogarithmicHaloPotential.c, LogarithmicHaloPotential.py |
| `Model/Pot/MN3Exponential` | galpy_potentials.c, integrateFullOrbit.py, integratePlanarOrbit.py, MN3ExponentialDiskPotential.py |
| `Model/Pot/MiyamotoNagai` | MiyamotoNagaiPotential.c, MiyamotoNagaiPotential.py |
| `Model/Pot/MovingObject` | integrateFullOrbit.c, integrateFullOrbit.py, MovingObjectPotential.c, MovingObjectPotential.py |
| `Model/Pot/NumDeriv` | NumericalPotentialDerivativesMixin.py |
| `Model/Pot/OblateStaeckel` | OblateStaeckelWrapperPotential.c, OblateStaeckelWrapperPotential.py |
| `Model/Pot/Ops` | CompositePotential.py, Force.py, Potential.py |
| `Model/Pot/Plummer` | PlummerPotential.c, PlummerPotential.py |
| `Model/Pot/PowerSpherical` | PowerSphericalPotential.c, PowerSphericalPotential.py |
| `Model/Pot/PowerSphericalCutoff` | integrateFullOrbit.py, PowerSphericalPotentialwCutoff.c, PowerSphericalPotentialwCutoff.py |
| `Model/Pot/PseudoIsothermal` | PseudoIsothermalPotential.c, PseudoIsothermalPotential.py |
| `Model/Pot/RadialProfiles` | AnySphericalPotential.py, EinastoPotential.c, EinastoPotential.py, Force.py, integrateFullOrbit.c, integrateFullOrbit.py, interpSphericalPotential.c, interpSphericalPotential.py, NullPotential.py, o.h |
| `Model/Pot/Ring` | Potential.py, RingPotential.py |
| `Model/Pot/SCF` | SCFPotential.py, special.py, SphericalHarmonicPotentialMixin.py |
| `Model/Pot/SCFC` | integratePlanarOrbit.py, SCFPotential.c, SCFPotential.py |
| `Model/Pot/SCFCoef` | c.c, d.c, SCFPotential.py |
| `Model/Pot/Shells` | HomogeneousSpherePotential.c, HomogeneousSpherePotential.py, integrateFullOrbit.py, SphericalShellPotential.py |
| `Model/Pot/SoftenedNeedle` | coords.py, integrateFullOrbit.py, integratePlanarOrbit.py, SoftenedNeedleBarPotential.c, SoftenedNeedleBarPotential.py |
| `Model/Pot/Spherical` | Potential.py, SphericalPotential.c, SphericalPotential.py |
| `Model/Pot/SpiralArms` | integrateFullOrbit.py, SpiralArmsPotential.c, SpiralArmsPotential.py |
| `Model/Pot/SubstWrappers` | CylindricallySeparablePotentialWrapper.c, CylindricallySeparablePotentialWrapper.py, KuzminLikeWrapperPotential.c, KuzminLikeWrapperPotential.py, Potential.py, WrapperPotential.py |
| `Model/Pot/SurfDens` | BurkertPotential.py, TwoPowerSphericalPotential.py |
| `Model/Pot/TwoPower` | DehnenCorePotential.c, DehnenPotential.c, HernquistPotential.c, JaffePotential.c, NFWPotential.c, TwoPowerSphericalPotential.py |
| `Model/Pot/TwoPowerGeneric` | TwoPowerSphericalPotential.c, TwoPowerSphericalPotential.py |
| `Model/Pot/TwoPowerTriaxial` | integrateFullOrbit.py, TwoPowerTriaxialPotential.c, TwoPowerTriaxialPotential.py |
| `Model/PotQuant` | Force.py, planarPotential.py, Potential.py |
| `Model/Reduce` | DissipativeForce.py, linearCompositePotential.py, planarCompositePotential.py, planarDissipativeForce.py, planarPotential.py, Potential.py, verticalPotential.py |
| `Model/RootSearch` | actionAngleSpherical.py, actionAngleStaeckel.py, actionAngleVertical.py, Potential.py |
| `Model/RungeKutta` | bovy_rk.c |
| `Model/SOS` | bovy_coords.c, integrateFullOrbit.c, integrateFullOrbit.py, integratePlanarOrbit.c, integratePlanarOrbit.py, Orbits.py |
| `Model/SavePickles` | __init__.py |
| `Model/SphericalAA` | actionAngleSpherical.py, planarPotential.py |
| `Model/StaeckelAA` | actionAngleStaeckel.py |
| `Model/Symplectic` | bovy_symplecticode.c, integrateFullOrbit.c, Orbits.py, symplecticode.py |
| `Model/Tilt` | bovy_coords.c, galpy_potentials.c, integrateFullOrbit.py, RotateAndTiltWrapperPotential.c, RotateAndTiltWrapperPotential.py |
| `Model/UtilNumerics` | __init__.py, quadpack.py |
| `Model/VerticalAA` | actionAngleVertical.py |
| `Model/Wrappers` | CorotatingRotationWrapperPotential.c, CorotatingRotationWrapperPotential.py, DehnenBarPotential.c, DehnenBarPotential.py, DehnenSmoothWrapperPotential.c, DehnenSmoothWrapperPotential.py, EllipticalDiskPotential.py, galpy_potentials.c, GaussianAmplitudeWrapperPotential.c, GaussianAmplitudeWrapperPotential.py, SolidBodyRotationWrapperPotential.c, SolidBodyRotationWrapperPotential.py, TimeDependentAmplitudeWrapperPotential.c, TimeDependentAmplitudeWrapperPotential.py, WrapperPotential.py |

Everything else in `/repo` is not modelled. In particular: potentials defined by
expansions, interpolation or special functions (SCF coefficients from multipoles, multipole, interpolated,
double-exponential disk, the value of the two-power triaxial one for inner slopes between 2 and 3, ...), the adiabatic action-angle formulas in C or for two-dimensional potentials, the isochrone-approximation ones
(only their bracketing searches are), the fixed-order quadratures and the C version of the Staeckel ones, `streamdf` except the one-dimensional frequency, time and angle distributions and the density its frequency sampling uses (not: track, lengths, sampling, `callMarg`), `streamgapdf` except its impulse kicks, density and mean frequency, the units of `stripping_pdf`, the track and the integration of the particles of `streamspraydf`,
sampling (`sampleV`, `interpolatedsampleV`), units and the array forms of `pvz` and `pvRvz` in `quasiisothermaldf`, the hierarchical grids and direct quadratures of `evolveddiskdf`, the snapshot and AMUSE
interfaces, plotting. scipy's integrators, root finders, splines and quadrature
are outside: where a modelled function calls `quad` the model has the exact
integral, where it calls `brentq` the model has the interval it is given.

## Disagreements found

Each of these is a theorem about the transcribed code: the property as stated in
`properties.jsonl` (or the documented behaviour it relies on) is false, with a
concrete or general witness. The `_partial` and remaining theorems of the same
property state what does hold.

* `C01_AnySpherical_infinity_fails`: For a density falling as `r⁻³` (infinite mass) the potential vanishes at infinity but the value returned there is `+inf`.
* `C01_ExpTruncNFW_fails`: Where the series is used the force is not exactly minus the derivative of the value, at any radius and for any parameters: the outer part of the value is exact, the inner part is the series.
* `C01_TwoPower_shift_fails`: Outside the closed forms the returned value is not a potential for the returned forces: `α = 2`, `β = 5`, `a = 1`, any point in the plane. The value is taken at `r + 1e-11`, the force at `r`.
* `C01_TwoPower_two_three_fails`: Inner slope 2 with outer slope 3: the value is `0/0` at every point, although a potential with exactly the returned forces exists.
* `C02_Ferrers_fails`: A bar at a position angle of 45 degrees: on its long axis, inside the body, `_R2deriv` returns the second derivative across the bar and not the one along it. The Hessian is rotated by the position angle in the wrong direction.
* `C02_SCF_fails`: Closer to the axis the second derivatives are those of another direction: for the expansion with the single coefficient `l = m = 1`, at `R = 1e-8`, `z = 1`, `phi2deriv` is not the second derivative in azimuth.
* `C03_Ferrers_fails`: For `a > 1` the density inside the body on the long axis, and with it `dens`, is not a quarter of the Laplacian over `π`: the code divides by `a²` twice.
* `C03_SpiralArms_fails`: The density of SpiralArmsPotential is not that of its potential: one factor of the formula of Cox and Gomez lacks its square (SpiralArmsPotential.py, the second term of `rE` in `_dens`). With one harmonic Poisson's equation fails at every point where the value of the potential is not zero.
* `C03_corotating_fails`: The density of the corotating wrapper is not that of its potential: a consistent wrapped potential, and a point at which Poisson's equation fails for the wrapper.
* `C04_PowerSphCut_int_fails`: `mass(1)` with an integer radius is not the mass within `R = 1`: the result is truncated to an integer (`α = 1`, `rc = 1`: 3 instead of `2π(1 - 1/e) ≈ 3.97`).
* `C07_after_assignment_fails`: Scaling a combination whose first item was replaced can raise: item 0 is assigned without a unit check, and the new combination is checked. So `k * c` does not always have a value (C07).
* `C09_linear_fails`: The full claim fails for one-dimensional combinations: after an item assignment that raised, the combination says it has C code although its member has none.
* `C09_nested_fails`: The full claim fails when a combination is assigned to an integer item: it stays nested, and a later assignment inside the nested one leaves the outer flags stale. The outer combination then claims to be axisymmetric although it contains a non-axisymmetric potential, and evaluating it without `phi` is not rejected with `PotentialError`.
* `C100_nmax_fails`: The limit on the number of steps (`nmax`, 1e8 by default, "Maximum number of steps") is never looked at: there is a bounded right-hand side for which no step is ever accepted, so the call does not end, whatever the limit.
* `C14_rE_unbound_fails`: If every circular orbit has an energy below `E` (for instance `E ≥ 0` in a potential that vanishes at infinity) the search for `rE` goes on for ever: no number of passes suffices.
* `C14_unbound_fails`: The search calls bound orbits unbound: whenever the start radius is above 50 and the orbit still moves outwards at twice that radius, the answer is `UnboundError`.
* `C14_xmax_sentinel_fails`: The value -9999.99 is returned as a maximum height for bound orbits: a harmonic oscillator of amplitude 200.
* `C14_zvc_limit_fails`: The limit is not harmless: with a solution beyond 1024 the answer is an error.
* `C14_zvc_range_far_fails`: Beyond a guiding radius of 1000 there is never an answer, whatever the potential, although the orbit has a range.
* `C15_default_fails`: With a nonnegative start time and the default end the factor jumps from 0 to 1.
* `C23_negative_dt_fails`: A positive step with decreasing times passes the check of the caller, but the C code then takes a single forward step per interval: for free motion with unit momentum the row for time -1 has position `+dt`.
* `C23_truncation_fails`: A step that passes the check of the caller but exceeds `spacing / 10` by a tiny amount: the code takes 9 steps, not 10, in each interval, so every row is short by a tenth of the spacing.
* `C23_uneven_fails`: Uneven times: with force zero and unit momentum the row for time 3 of the times 0, 1, 3 is that of time 2. The statement for every time array is false.
* `C24_exact_sum_fails`: The decimals of the arrays do not sum to one exactly, so with exact arithmetic the variable `to` of `symplec4` and `symplec6` drifts away from the requested times.
* `C24_tolerance_fails`: Steps with an estimated error above the tolerance are accepted: 2 is more than 1.
* `C24_wrong_sign_fails`: A first step given with the wrong sign passes the check of `Orbit.integrate`, but the loop for the first output then never ends, whatever the force.
* `C25_custom_reflection_fails`: The matrix has to be a proper rotation: for a reflection the sign of the first component is wrong.
* `C27_sun_on_axis_fails`: For `Xsun = 0` the sign in the formulas is zero and the conversion forgets the height above the plane.
* `C29_epoch_fails`: For another epoch `galsky_to_sky_jac` converts the position with the default epoch: for `epoch=1950` it is not the Jacobian of the conversions with `epoch=1950`.
* `C29_extra_rot_fails`: With the additional rotation, which is on by default in the conversions, `galcenrect_to_XYZ_jac` is not their Jacobian: at no point, whenever the rotation is not the identity.
* `C30_lambdanu_sign_fails`: Below the plane, or for negative `R`, the sign is lost.
* `C30_oblate_sign_fails`: Points below the plane do not make the oblate round trip.
* `C31_year_fails`: **C31 (a mega-year has two lengths).** Without astropy, the factor for accelerations in `10^-13 km/s^2` uses the tropical year while the conversion of km/s to pc/Myr uses the Julian one: the acceleration `vo^2 / ro` (with a kpc of `pc 10^16` km) is off by more than 2 parts in 100000, for every choice of scales.
* `C32_log_warning_fails`: **C32 (a misleading warning).** When the logarithm is asked for together with `use_physical=True`, the warning that the scales are not set is printed although they are.
* `C32_mass_energy_fails`: **C32 (a scale that is needed but not asked for).** The mass per energy depends on the length scale, but the table says it does not: with the velocity scale set and the length scale not, the method raises a `TypeError` rather than returning the number in internal units.
* `C32_needless_fails`: **C32 (a scale that is asked for but not needed).** Angles depend on neither scale, and number densities only on the length scale; nevertheless an angle is returned without unit when the length scale is not set, and a number density in internal units when only the length scale is set.
* `C33_history_fails`: The status is not kept by item assignment: after `turn_physical_off` and assigning an object with units to item 0, the combination has no units but its member has.
* `C34_symmetric_fails`: The relation is not symmetric: the difference is measured relative to the first operand. With `ro = 1` and `ro = 1 + 1e-8` the combination is accepted in one order and rejected in the other.
* `C34_transitive_fails`: Nor transitive.
* `C35_scales_fails`: "Everything stored" does not include the unit scales: with one distance scale per orbit, the object `o[1]` converts its only orbit with the scale of `o[0]` (and still holds both).
* `C36_flip_fails`: `flip(inplace=True)` reverses the stored velocities but not the stored times: what is then stored is not a trajectory.
* `C36_isclose_fails`: The tolerance of the comparison of times: times that start 0.005 before the end of a stored integration over [0, 1000] are taken to start at its end, so that the stored times are no longer monotone and the stored states are not on one trajectory.
* `C37_dxdv_fails`: `integrate_dxdv` on a new object, then `integrate`: `AttributeError`.
* `C37_interrupted_fails`: An interrupted first integration, then an integration in the other direction: `AttributeError`.
* `C37_sliced_fails`: Integrate, select one orbit, integrate it further: `AttributeError`.
* `C38_continued_fails`: An interrupted continuation: the initial condition (0, 1) has become (1, 1), and the new times are stored beside the old trajectory.
* `C38_mismatch_fails`: Also without a continuation the times no longer match the stored trajectory.
* `C39_ias15_fails`: `ias15_c` is not rerouted for velocity-dependent forces, although its C code does not pass the velocity to the forces.
* `C39_spelling_fails`: A name in upper case is accepted, but the checks of the forces compare it with lower-case text: the C leapfrog runs for a potential without C code, the Python leapfrog for a velocity-dependent force, and the surface-of-section integration ignores the request.
* `C40_full_position_fails`: Full orbits, negative radius: the returned state is at height `z + π` instead of `z` and on the other side of the axis; it never stands for the integrated position.
* `C40_no_azimuth_fails`: Orbits without azimuth, negative radius: the distance `|R|` changes at the rate `-R'`, while the returned state has rate `R'` and the angular momentum reversed.
* `C40_planar_velocity_fails`: Planar orbits, negative radius: the returned velocity is exactly the reverse of the true one.
* `C41_empty_fails`: An empty sequence is not mapped to an empty list: the call raises a `ValueError`.
* `C41_error_order_fails`: Which of several exceptions is raised depends on the scheduling: the one of a later element can win.
* `C41_mixed_fails`: A sequence of mixed types is converted before the function sees it.
* `C41_single_fails`: A sequence of one element gives a lazy iterator instead of a list: the function has not been called, and an exception of it is not raised by the call.
* `C42_other_file_system_fails`: On different file systems `shutil.move` copies, and a crash during the copy leaves a truncated target.
* `C42_unbound_fails`: An interrupt just before the file is opened ends with an `UnboundLocalError`: nothing is saved and no `KeyboardInterrupt` is raised. A failing `open` is masked in the same way.
* `C43_default_section_fails`: A value that the user gives in the `[DEFAULT]` section is lost when the section of the key is missing.
* `C43_dropped_fails`: The repair drops the sections and keys it does not know from the user's file.
* `C43_percent_fails`: A value with an (escaped) percent sign makes the repair raise: galpy cannot be imported.
* `C44_tolerance_fails`: The accuracy asked for is not guaranteed: an integrand that vanishes at the first nodes ends the loop at once, without a warning, and as far from the integral as one likes.
* `C45_flat_fails`: An array with one axis, with the default `axis=0`: the result is the array with `log n` added to each entry, not the logarithm of the sum.
* `C46_antiparallel_fails`: Around the antiparallel direction the point reflection is returned, which is not a rotation: its determinant is minus one.
* `C50_inverse_planar_fails`: **C50 (planar orbits, inverse).** Without inclination the position computed from actions and angles does not depend on the azimuthal angle.
* `C50_planar_retrograde_fails`: **C50 (planar orbits with negative angular momentum).** Turning such an orbit about the axis by an angle turns the azimuthal angle backwards: the convention for orbits without inclination has the wrong sign. The radial and vertical position are the same, so the azimuthal angle should change by the angle itself.
* `C50_polar_fails`: **C50 (polar orbits).** For polar orbits the two classes disagree about the frequency of the azimuth: from the point it is the vertical frequency, from the actions zero.
* `C51_Chandrasekhar_fails`: Beyond `maxr` the C force uses the dispersion at `maxr`, the Python force the dispersion at the radius itself; they differ even when both splines reproduce the dispersion function exactly.
* `C51_Dehnen_Eval_fails`: Disagreement: for α = 2 the C evaluation of the potential divides by zero at every point, while the Python object returns the (finite) Jaffe value.
* `C51_Ellipsoidal_fails`: At the centre the C second derivatives are those of the initial memory, zero, because its zeros are taken for a remembered evaluation at the centre. Here, a spherical perfect ellipsoid with one node: Python has `π`, which is minus the derivative of the vertical force, C has `0`.
* `C51_KuzminDisk_planarR2deriv_fails`: Disagreement: `KuzminDiskPotentialPlanarR2deriv` has the opposite sign of the Python `R2deriv` at `z = 0`, so they differ wherever the derivative is non-zero; concretely at `R = 1`, `a = 1`, `amp = 1`.
* `C51_MovingObject_planar_fails`: The planar C functions ignore the height of the object: integrating a planar orbit in C past an object (here the default Plummer sphere) that is not in the plane gives a different force from the Python version.
* `C51_interpSpherical_fails`: Inside the first grid point the C force is zero while Python extrapolates: the two integrations differ, even if both splines are the same function.
* `C53_KG_density_fails`: So a density passed as the argument `F` (which the constructor multiplies by `4 π`) is not the density of the resulting potential: `Φ'' = 8 π ρ`, not `4 π ρ`, for every non-zero density, whatever the unit conversion.
* `C53_KG_units_fails`: A second derivative passed with units is converted with the constructor's own `ro` and `vo`, so without them the constructor raises instead of using the configured defaults; with them it is the intended conversion.
* `C54_Cosmphi_Rphideriv_fails`: So `Rphideriv` is wrong inside the break radius whenever `m ≠ 1` and it is not zero; for instance with all parameters one but `m = 2`, `rb = 2`, at `R = 1`, `φ = π/4`.
* `C54_Cosmphi_cpsp_fails`: For `m ≥ 2` a negative `cp` gives the potential with the opposite sign.
* `C54_Cosmphi_r1_fails`: With a normalisation radius whose power is not one and a break radius, the potential is not continuous at the break radius (it is documented to be), at any azimuth where it does not vanish.
* `C54_DehnenBar_array_axis_fails`: but on the axis inside the bar radius the array path returns a non-zero value where the scalar path returns zero (and every limit towards the axis at that height is zero), for every bar that is switched on.
* `C54_DehnenBar_retrograde_fails`: For a retrograde bar (negative pattern speed) the period `2 π/Ω_b` is negative and with the default `tform = -4` the bar is switched off at `t = 0`, although the documented amplitude there is the full one.
* `C54_Lopsided_r1_fails`: The normalisation radius of `LopsidedDiskPotential` is ignored: the value is not the documented `amp φ₀ (R/R₁)^p cos(φ - φ_b)` for any `r1` with `r1^p ≠ 1`, wherever the potential is not zero.
* `C54_SteadyLogSpiral_retrograde_fails`: For a retrograde pattern the period `2 π / Ω_s` is negative, the two times come out with the opposite sign and order, and the growth is not the documented function of `t / T_s`: with `tform = -4`, `tsteady = 2` the documented amplitude at `t = 0` is the full one, the code's is 0.
* `C55_C_first_call_fails`: At the origin at time zero the first call finds a key of zeros and returns zero.
* `C55_caller_fails`: The array passed as axis is changed.
* `C55_integer_axis_fails`: An axis given by integers raises.
* `C55_no_galaxy_pa_fails`: An inclination without a galaxy position angle, documented as optional, raises.
* `C55_opposite_axis_fails`: The same for an axis opposite to the old one.
* `C55_sky_pa_fails`: Without an inclination the sky position angle is ignored without notice.
* `C55_upside_down_fails`: At an inclination of 180 degrees the potential is mirrored: the matrix has determinant minus one, while the documented matrix is a rotation.
* `C56_C_first_call_fails`: On the axis the start of the cache shows: with an accelerated frame the first call at the origin, at rest, at time zero returns 0 instead of minus the acceleration.
* `C56_list_fails`: The documented plain list of three numbers is not accepted for `Omega`.
* `C56_offset_fails`: A position of the origin that is passed together with a rotation but without an acceleration is silently ignored: the frame that turns about a fixed point other than the origin has no centrifugal force at its origin.
* `C57_fails`: A growing Plummer sphere, amplitude `1 + t²` (TimeDependentAmplitudeWrapperPotential): at `t = 1` the mass is `M`, but the dynamical time returned belongs to the mass `M / 2` of `t = 0`.
* `C58_schwarzschild_derivatives_fails`: On a rising curve (`beta=0.5`) the radial derivative of the Schwarzschild DF is wrong: the inherited method differentiates the exact energy while the DF uses the epicycle energy. The Oort constants of the class are computed from this derivative.
* `C58_schwarzschild_vT_fails`: On a flat curve the derivative in the tangential velocity is wrong.
* `C58_shu_retrograde_fails`: For a Keplerian curve (`beta=-0.5`) the guiding-centre radius is `L ** 2.0`, which is positive for negative `L`, so the test for counter-rotation does not see it: the DF is the same for `L` and `-L`. (For other nonzero slopes `L ** (1 / (beta + 1))` is `nan` and so is the DF.)
* `C58_vtmax_shu_fails`: The same equation is used for the Shu DF, whose derivative is a different function.
* `C59_composite_fails`: A sum of potentials as the tracer: the isotropic class accepts it, this one raises, because it asks whether the density is a `list`.
* `C59_odd_tangential_fails`: For an odd order of the tangential velocity the shortcut returns zero, which the documented moment is not: the mean tangential speed of the Plummer model (or any other) is not zero.
* `C59_orbits_fails`: An `Orbit` holding several orbits is not evaluated orbit by orbit: their angular momenta are added in quadrature, so an anisotropic distribution function gives every one of them a wrong value.
* `C60_evenly_spaced_fails`: The evenly-spaced check has an absolute tolerance of `1e-8`: grids with smaller steps pass however uneven they are.
* `C60_single_time_fails`: A single output time makes the check raise instead of answer.
* `C60_zero_multiple_fails`: The multiple may be 0: an output step below `1e-10` is accepted with a `dt` that is larger than the whole step.
* `C62_PerfectEllipsoid_fails`: PerfectEllipsoid with any other `a`: `_mass` has `1 + R²` where the integral has `a² + R²`, so that it is the mass of no ellipsoid at all.
* `C62_asymmetric_fails`: `mass(R, z)` counts the flux through the top twice instead of through top and bottom, so without symmetry about the plane it is not the mass in the cylinder.
* `C62_kuzmin_composite_fails`: A combination containing a razor-thin disk misses the disk: its default surface density integrates the volume density, which is zero off the plane, although the disk alone and the Poisson route both report the disk's surface density.
* `C62_negative_z_fails`: Below the plane the closed forms return minus the column although the documented value, and both other routes, are the column between `-|z|` and `|z|`.
* `C63_lone_azimuth_fails`: `sample(phi=...)` promises velocities at this azimuth; without `R` and `z` it is ignored.
* `C63_rmin_fails`: `sample(rmin=...)` promises the minimum radius at which to sample. The classes with an analytic inverse mass profile ignore it: any `rmin` is undercut with positive probability.
* `C64_TwoPowerTriaxial_fails`: TwoPowerTriaxialPotential with an inner slope below 2 other than 1: `_psi` is not the documented integral but differs from it by `2 a² (α - 1) Γ(2-α) Γ(β-2) / Γ(β-α)`, because the constant `psi_inf` has `Γ(3-α)` for `Γ(2-α)`. The value far from the centre tends to a constant other than zero.
* `C65_brute_fails`: A column exactly on the surface hides the crossing.
* `C65_company_fails`: The first point of an orbit that starts on the surface depends on the other orbits of the object: alone it is the start, with an orbit off the surface it is the next crossing.
* `C65_initial_fails`: The initial condition of an orbit that starts close above the surface (angle `5e-8`) is lost: the object keeps the first crossing as its initial condition.
* `C65_scalar_t0_fails`: Several orbits, a Python integrator and a scalar `t0`, as documented: an error, whatever the orbits.
* `C65_time_fails`: A force that depends on time: the second crossing is not a point of the orbit, since the integration after the first crossing starts again from the original time.
* `C65_times_fails`: The stored times are not the times of the crossings: they start from the first crossing.
* `C66_keyword_fails`: Angles given by keyword are not converted: with the longitude by position and the latitude (180 degrees) and distance by keyword, the height is not `sin 180° = 0`.
* `C66_position_fails`: The flag given by position is ignored.
* `C67_galcencyl_fails`: The same sample in cylindrical coordinates, for an observer on the first axis and an object on it.
* `C67_galcenrect_fails`: The claim is false for every position of the sun.
* `C69_array_fails`: **C69 (actions of arrays in one dimension).** In one dimension the method returns an array with an action for each input point. With more than three points the decorator runs out of factors and raises an `IndexError`.
* `C69_positional_fails`: **C69 (positional azimuth or time with a unit).** Quantities that are positional arguments are taken as lengths: an azimuth or a time with a unit is refused there, whatever the other arguments.
* `C69_velocity_fails`: **C69 (velocity with a unit).** For a velocity-dependent force given a velocity with a unit but no time, the decorator uses a variable that is not bound.
* `C70_CylSep_time_fails`: The property fails for a wrapped potential that changes in time: the methods do not pass the time on, so the wrapper stays what it is at time 0. Witness: a Kepler potential whose amplitude grows linearly (`TimeDependentAmplitudeWrapperPotential` with `A(t) = 1 + t`).
* `C70_KuzminLike_units_fails`: The property fails for a wrapped potential with physical scales: its second derivatives come back in `1/Gyr²` and are combined with forces in internal units. With `ro = 8`, `vo = 220`, wrapping a Kepler potential, the second radial derivative at `R = 1, z = 0` with `a = 0, b = 1` is a different number, and with astropy units as output the call raises.
* `C74_fails`: The documented amplitude is not what one gets: with `amp = 1`, `n = 1`, `rm2 = 1` the density at `rm2` is documented to be 1, but it is `e^{-2}` (the constructor stores the corrected amplitude under a name nothing reads).
* `C76_pickle_fails`: When a dispersion function was given, unpickling replaces it by the one that `jeans.sigmar` computes, which changes the force beyond `maxr`.
* `C77_vertical_freqs_fails`: `actionsFreqs` and `actionsFreqsAngles` of `actionAngleVertical` give different frequencies, even with exact integrals: the first leaves out the velocity in the part of the integral next to the turning point (where its variable is at most `10^-6`). For the oscillator of frequency 1 and amplitude 1 the first frequency is too large.
* `C78_below_fails`: At the lowest point of an orbit (the momentum in `v` vanishes and the point is below the plane) the calculation without C raises an exception, although the orbit is regular: by the symmetry of the potential the actions are those of the mirrored point.
* `C79_SpiralArms_fails`: At a single `R` and `z` an array of azimuths never gives the array of values: with one harmonic (the default) the result is silently one number, the sum of the values over all the azimuths, and with more harmonics it is one number or an error.
* `C81_hernquist_scale_fails`: A Hernquist sphere at a closest distance equal to its scale radius: the code divides zero by zero, while the kick is a number.
* `C81_integer_velocity_fails`: Velocities of the stream given as integers: the kick is rounded to zero before it is scaled with the mass.
* `C81_plummer_antiparallel_fails`: A stream that moves along the negative `y` axis: the reflection used for the rotation puts the body on the other side, and the kick has the opposite sign.
* `C81_plummer_parallel_fails`: A body at rest, so that its velocity is parallel to the stream: the direction of the impact parameter is arbitrary, but whatever it is the kick returned is the square root of two times too large.
* `C82_corrected_fails`: **Corrected disks.** With `correct=True` the function handed to the sampler adds the correction itself instead of its logarithm, while the derivative handed over is that of the logarithm. Where the correction is neither stationary nor equal to one, the second is not the derivative of the first; and such corrections exist.
* `C82_distribution_fails`: **Three abscissae: wrong distribution.** For a normal density with the three abscissae -1, 0 and 1, the interval between 1/2 and 1 is less likely than its mirror image, although the density is symmetric: right of the first intersection of tangents the function is compared to the tangent of the wrong abscissa.
* `C82_lower_fails`: **The lower hull is not below the function.** For a normal density with the three abscissae -1, 0 and 1, the lower hull evaluated at 1/4 is 1/8, above the function, which is negative there.
* `C82_peak_fails`: **The abscissa at the peak.** A disk with scale length 0.05 (or 2) cannot be sampled: the first (last) of the fixed starting abscissae is exactly the peak of the density, and the set-up divides by the zero slope there, although the documentation only asks for abscissae on both sides of the peak when the domain is unbounded.
* `C83_list_c_fails`: With every method other than `odeint` (so with the default method for potentials with a C implementation) a list of times that does not end with the initial time gives wrong values, even in a force that does not depend on time: the orbit is integrated for the time between the first and the last entry of the list only. In the frame with constant acceleration `[-1, 0, 0]`, with initial time -2 and the list `[0, -1]`, the value returned for `t = 0` is the initial density at `R = 2.5`, the orbit's position one unit of time before, instead of `R = 4`, its position at the initial time.
* `C83_list_first_fails`: A list that starts with the initial time gives one value, whatever its length.
* `C83_list_time_fails`: In a force that depends on time a list of times gives wrong values with every method, even if it ends with the initial time: the value for each time is computed from the orbit that starts at the first time of the list. In the frame with acceleration `[-t, 0, 0]`, with initial time -2 and the list `[0, -1, -2]`, the value for `t = -1` is the initial density at `R = 100 - 1/6` instead of `R = 100 - 2/3`.
* `C85_evolved_time_fails`: The time passed to `evolveddiskdf(o, t, marginalizeVperp=True)` has no effect. Without forces, for the initial density `R^2` at `t = -1`, asked for the marginal density at `t = -1` at the tangent point of the line of sight of longitude 45 degrees, the value at `t = 0` is returned.
* `C86_density_zero_fails`: At angle offset zero every frequency passes the test of `pOparapar`, also those moving the other way, and its integral is not what `density_par` returns.
* `C86_meantd_fails`: For a mean offset below three dispersions (the user's `sigMeanOffset < 3`) the upper limit `a / (meandO - 3 sigma)` of the integral over stripping time is negative, and `meantdAngle` averages over the times *below* the lower limit: for every angle offset that stars within three dispersions reach, it returns less than the time at which the fastest of these left, and less than the mean stripping time.
* `C86_sigangle_fails`: `sigangledAngle` integrates the distribution of the perpendicular angle only out to the larger of `sigangle` and five times the spread from the frequencies. Where the initial spread `sigangle` dominates this is out to one dispersion, and the result is below `sigangle / √3`, although the dispersion is at least `sigangle`: too small by more than 40%.
* `C86_smallest_fails`: `sigangledAngle(smallest=True)` does not use the smallest eigenvalue: `smallest` is not handed on to `pangledAngle`. Streams that differ in it get the same answer although their dispersions differ.
* `C87_exact_fails`: `density_par(approx=False)` is not the number that `density_par` returns with the approximation, also where the latter is exact: it is larger by `√(2π)` everywhere.
* `C87_higher_mean_fails`: `meanOmega(higherorder=True)`: the numerator should change by the integral of the frequency `x` times the first-order change; the code adds that of `2 O_i - x`, where `O_i` is the frequency at the near end of the interval (the sign of one term is wrong), and for a quadratic kick the two differ.
* `C88_axi_fails`: With five multipoles and any number of radial functions from twelve on, the default order is one too low: the coefficient of the last basis function is not recovered from its own density.
* `C90_adiabatic_fails`: With adiabatic actions `density` is not the integral of the distribution function over velocity: it tends to a quarter of it, while the marginal distribution of the tangential velocity integrates to the full value.
* `C90_array_fails`: Arrays of actions and numbers give different values for an angular momentum outside the grid: the array branch combines the two range conditions with "and", so it always uses the interpolation.
* `C90_direct_fails`: Direct integration gives, for a distribution even in the radial velocity, a non-zero mean radial velocity, and the dispersion of the tangential velocity comes out negative.
* `C90_init_fails`: An isochrone action-angle object whose mass differs from that of the potential is accepted.
* `C90_mc_fails`: The Monte Carlo estimate of the density has not the density as expectation: for a Maxwellian it is smaller by `(2 π)^(3/2)`.
* `C90_nsigma_fails`: The number of dispersions to integrate over, an argument of the mean velocities and dispersions, has no effect with Gauss-Legendre integration: asking for one dispersion gives the result for four.
* `C90_surfacemass_fails`: The largest height is ignored: for a constant density the result with `zmax=1` is half of the integral up to that height, and the two ways of integrating differ by a factor of two.
* `C91_centre_fails`: The right-hand side at the centre: for a regular solution the second derivative is a third of what the system returns there.
* `C92_from_nfw_fails`: The documentation says that there is no upper limit on the mass, and every mass can indeed be reached (`C92_reachable`), but for a mass of 400 times the amplitude or more the bracket does not contain the solution and the conversion raises a ValueError.
* `C94_circular_fails`: **C94 (circular velocity).** With the default `gamma = 1`, at a point without radial velocity whose azimuthal velocity is the circular velocity the radial action is nought whatever the vertical action is, although the motion with the enlarged angular momentum is eccentric.
* `C94_gamma_fails`: **C94 (default `gamma`).** With the default `gamma = 1` the radial action is not a constant of the motion in separable potentials: two points with the same angular momentum, the same energy of the motion in the plane and the same height and vertical velocity, one of which has actions while the other one raises `UnboundError`.
* `C94_turning_fails`: **C94 (turning points).** With the default `gamma = 1`, at a point without radial velocity that is slower than the circular velocity but has a larger enlarged angular momentum than a circular orbit, the pericentre is reported to be nought although the motion with the enlarged angular momentum does not come closer to the centre than this point.
* `C95_time_fails`: **C95 (time).** The time is not passed on: with a potential that grows, smooth at each time, the wrapper is not even in the plane the wrapped potential at that time.
* `C96_amp_fails`: **C96 (amplitude).** The amplitude is not used: twice the amplitude does not give twice the force, for every contraction that leaves a force at the last radius.
* `C97_diverges_fails`: For the same tracers the integral over velocity that should be the density does not exist, at any radius.
* `C97_edge_fails`: On the boundary `γ = α/2 + 1` the second term is dropped and the density is too small by the factor `1 + r²/ra²`.
* `C97_negative_fails`: Tracers that the constructor accepts with `3 - α/2 < γ < α/2 + 1` (for instance `α = 2.5`, `γ = 2`): the distribution function is negative for all `Q` below some positive value, that is for stars close to the escape velocity at every radius.
* `C98_retrograde_fails`: Retrograde orbits in the plane get a frame that is not a rotation of the axes: the second axis is opposite to the motion, so that the particles of `fardal15spraydf` have the wrong sign of the offsets of tangential velocity and of azimuth.
* `C98_retrograde_sign_fails`: A progenitor in a retrograde orbit in the plane for which the particle is not where the rule puts it, whatever the tidal radius and the circular velocity.
* `C98_tide_fails`: In a flattened potential the tidal radius is not that at the position of the progenitor: at `(0, 0, 2)` in a logarithmic halo with `q = 1 / 2` a particle that the rule puts one tidal radius farther than the progenitor is at distance `3`, but the tidal radius is not `1`.
* `C98_units_fails`: The vertical offset of `fardal15spraydf` is a number, not a length: the same progenitor in units of length half as long does not have its particle at twice the position.
* `C99_gap_fails`: Distributions that are zero on an interval: times inside it are drawn. At the end of every interval of at least one step without stripping, other than at the present, there are random numbers greater than the fraction of particles stripped before that give a time inside of the interval.
