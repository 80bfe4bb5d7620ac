{"id": "C01", "title": "Forces are minus the gradient of the potential (3D analytic potentials)", "statement": "For each closed-form 3D potential, Rforce, zforce and phitorque returned at (R,z,phi,t) are exactly minus the partial derivatives with respect to R, z and phi of the value returned by calling the potential.", "quantifier": "every parameter value of the class, every point off the documented singular set, every time", "why_tests_cant": "Tests compare against finite differences at a handful of radii and one or two parameter sets; they cannot exclude a wrong coefficient that is invisible there, nor establish the identity for all parameters and points.", "anchors": ["galpy/potential/PlummerPotential.py", "galpy/potential/IsochronePotential.py", "galpy/potential/MiyamotoNagaiPotential.py", "galpy/potential/LogarithmicHaloPotential.py", "galpy/potential/KuzminDiskPotential.py", "galpy/potential/PowerSphericalPotential.py", "galpy/potential/FlattenedPowerPotential.py", "galpy/potential/TwoPowerSphericalPotential.py", "galpy/potential/BurkertPotential.py", "galpy/potential/PseudoIsothermalPotential.py", "galpy/potential/HomogeneousSpherePotential.py", "galpy/potential/SCFPotential.py:SCFPotential", "galpy/potential/TwoPowerTriaxialPotential.py: TwoPowerTriaxialPotential"]}
{"id": "C02", "title": "Second derivatives are the Hessian of the potential", "statement": "R2deriv, z2deriv, Rzderiv, phi2deriv, Rphideriv and phizderiv are exactly the second partial derivatives of the potential value in cylindrical coordinates.", "quantifier": "every parameter value, every regular point, every time", "why_tests_cant": "Tests compare against finite differences at a handful of radii and one or two parameter sets; they cannot exclude a wrong coefficient that is invisible there, nor establish the identity for all parameters and points.", "anchors": ["galpy/potential/PlummerPotential.py", "galpy/potential/IsochronePotential.py", "galpy/potential/MiyamotoNagaiPotential.py", "galpy/potential/LogarithmicHaloPotential.py", "galpy/potential/PowerSphericalPotential.py", "galpy/potential/FlattenedPowerPotential.py", "galpy/potential/SCFPotential.py:SCFPotential", "galpy/potential/TwoPowerSphericalPotential.py", "galpy/potential/TwoPowerTriaxialPotential.py: TwoPowerTriaxialPotential"]}
{"id": "C03", "title": "Density satisfies the Poisson equation", "statement": "4*pi*dens(R,z,phi,t) equals the cylindrical Laplacian of the potential value, so that the analytic densities and the ones derived from forces agree.", "quantifier": "every parameter value, every regular point", "why_tests_cant": "Tests compare against finite differences at a handful of radii and one or two parameter sets; they cannot exclude a wrong coefficient that is invisible there, nor establish the identity for all parameters and points.", "anchors": ["galpy/potential/Potential.py:dens", "galpy/potential/PlummerPotential.py", "galpy/potential/MiyamotoNagaiPotential.py", "galpy/potential/LogarithmicHaloPotential.py", "galpy/potential/SCFPotential.py:SCFPotential", "galpy/potential/TwoPowerSphericalPotential.py", "galpy/potential/TwoPowerTriaxialPotential.py: TwoPowerTriaxialPotential"]}
{"id": "C04", "title": "Enclosed mass of spherical potentials", "statement": "mass(r) equals r^2 times the inward radial force, its derivative is 4 pi r^2 dens(r), and mass tends to the documented total.", "quantifier": "every parameter value and every radius", "why_tests_cant": "Tests compare a few radii with numerical quadrature at 1e-6 tolerance.", "anchors": ["galpy/potential/PlummerPotential.py:_mass", "galpy/potential/SphericalPotential.py", "galpy/potential/Potential.py:mass", "galpy/potential/TwoPowerSphericalPotential.py"]}
{"id": "C05", "title": "SphericalPotential base class is consistent", "statement": "Any subclass that supplies revaluate, rforce = -d revaluate/dr and r2deriv = d2 revaluate/dr2 automatically has Cartesian/cylindrical forces, Hessian, density and mass that are consistent with each other.", "quantifier": "every radial profile whatsoever (twice differentiable), every R,z with R^2+z^2>0", "why_tests_cant": "Tests only run the concrete subclasses shipped; the base class promises it for every user-defined profile.", "anchors": ["galpy/potential/SphericalPotential.py"]}
{"id": "C06", "title": "Sum of potentials evaluates to the sum and stays consistent", "statement": "Any combination built with + evaluates, in every method, to the sum of its members, and a combination of potentials whose forces are gradients has forces that are gradients (likewise Hessian and Poisson).", "quantifier": "every finite combination of any size and nesting, every point", "why_tests_cant": "Only a few particular combinations can be tested.", "anchors": ["galpy/potential/CompositePotential.py", "galpy/potential/Force.py:__add__", "galpy/potential/Potential.py:evaluatePotentials"]}
{"id": "C07", "title": "Scaling by a number", "statement": "k*pot, pot*k and pot/k scale potential, forces, second derivatives, density and mass by k (1/k), do not modify the original object, and distribute over combinations.", "quantifier": "every number k, every combination tree", "why_tests_cant": "Tests try one or two numbers on a few potentials.", "anchors": ["galpy/potential/Force.py:__mul__", "galpy/potential/baseCompositePotential.py:__mul__"]}
{"id": "C08", "title": "Combinations are always flat", "statement": "Combining potentials by +, list nesting or constructor always yields a combination with no nested combination, with the members in left-to-right order; flattening twice changes nothing and + is associative and has the right length.", "quantifier": "every nesting depth and shape of the input", "why_tests_cant": "Depth and shape of nesting are unbounded.", "anchors": ["galpy/potential/Potential.py:flatten", "galpy/potential/CompositePotential.py:__init__", "galpy/potential/Force.py:__add__"]}
{"id": "C09", "title": "Capability flags of a combination track its members", "statement": "After any history of construction and item assignment, the flags of a combination (non-axisymmetric, dissipative, has C, has C derivatives) equal the or/and of the members' flags.", "quantifier": "every sequence of item assignments of any length", "why_tests_cant": "A stale flag appears only after particular histories.", "anchors": ["galpy/potential/baseCompositePotential.py:__setitem__", "galpy/potential/CompositePotential.py"]}
{"id": "C10", "title": "Missing azimuth or velocity is never silently defaulted", "statement": "The module-level evaluate* functions, given a non-axisymmetric potential (or combination containing one) without phi, or a dissipative force without velocity, raise PotentialError; otherwise evaluation returns a value.", "quantifier": "every combination of members and of supplied arguments", "why_tests_cant": "The combination space of members and arguments is unbounded.", "anchors": ["galpy/potential/Potential.py:_evaluateRforces", "galpy/potential/Potential.py:evaluatePotentials"]}
{"id": "C11", "title": "Circular velocity and frequencies", "statement": "vcirc^2 = R dPhi/dR in the plane, omegac = vcirc/R, dvcircdR is the derivative of vcirc, epifreq^2 = R d(Omega^2)/dR + 4 Omega^2 and verticalfreq^2 = d2Phi/dz2.", "quantifier": "every potential with consistent derivatives, every R>0 where the force is inward", "why_tests_cant": "The identities must hold for arbitrary user potentials.", "anchors": ["galpy/potential/Potential.py:vcirc", "galpy/potential/Potential.py:dvcircdR", "galpy/potential/Potential.py:omegac", "galpy/potential/Potential.py:epifreq", "galpy/potential/Potential.py:verticalfreq"]}
{"id": "C12", "title": "Tidal tensor is minus the Cartesian Hessian", "statement": "ttensor returns minus the matrix of second Cartesian derivatives of the potential; it is symmetric and its trace is -4 pi dens.", "quantifier": "every potential with consistent derivatives, every point with R>0, every azimuth", "why_tests_cant": "Nine components as functions of position and azimuth for an arbitrary potential.", "anchors": ["galpy/potential/Potential.py:ttensor"]}
{"id": "C13", "title": "Spherical-radius force and second derivative", "statement": "rforce, r2deriv are the first (negative) and second derivative of the potential along the radial ray.", "quantifier": "every consistent potential, every point other than the origin", "why_tests_cant": "Holds for arbitrary potentials.", "anchors": ["galpy/potential/Potential.py:r2deriv", "galpy/potential/Force.py:rforce"]}
{"id": "C14", "title": "Bracketing searches return genuine brackets", "statement": "The search loops that start root finding for guiding radius, energy radius, half-mass radius, zero-velocity curve, peri- and apocentre, the turning points in u and v and the maximum height of a one-dimensional orbit, when they end with an interval, have found one in which the equation has a solution. They end for every input on which a solution exists, and a refusal (NaN, ValueError, UnboundError, OverflowError) happens only when there is no solution below the limit of the search.", "quantifier": "every potential, rotation curve, mass profile, energy and angular momentum, every starting point, every number of loop iterations", "why_tests_cant": "The number of iterations depends on the potential and is unbounded.", "anchors": ["galpy/potential/Potential.py:_rlFindStart", "galpy/potential/Potential.py:_rEFindStart", "galpy/potential/Potential.py:_rhalfFindStart", "galpy/potential/Potential.py:zvc", "galpy/potential/Potential.py:zvc_range", "galpy/actionAngle/actionAngleSpherical.py:_rapRperiAxiFindStart", "galpy/actionAngle/actionAngleStaeckel.py:_uminUmaxFindStart", "galpy/actionAngle/actionAngleStaeckel.py:_vminFindStart", "galpy/actionAngle/actionAngleVertical.py:calcxmax"]}
{"id": "C15", "title": "Smooth growth of DehnenSmoothWrapperPotential", "statement": "The time factor is 0 before tform, 1 after tsteady, always within [0,1], continuously differentiable and nondecreasing; with decay it is one minus that.", "quantifier": "every tform < tsteady and every time", "why_tests_cant": "A jump or overshoot between sampled times is invisible to tests.", "anchors": ["galpy/potential/DehnenSmoothWrapperPotential.py:_smooth"]}
{"id": "C16", "title": "Amplitude wrappers scale the wrapped potential", "statement": "Wrappers that modulate the amplitude (DehnenSmooth, GaussianAmplitude, TimeDependentAmplitude) return in every method the wrapped method times the same time factor, so forces remain gradients and the density remains the Poisson density at each time.", "quantifier": "every wrapped potential, every time and point", "why_tests_cant": "Holds for an arbitrary wrapped potential.", "anchors": ["galpy/potential/WrapperPotential.py", "galpy/potential/DehnenSmoothWrapperPotential.py", "galpy/potential/GaussianAmplitudeWrapperPotential.py", "galpy/potential/TimeDependentAmplitudeWrapperPotential.py"]}
{"id": "C17", "title": "Rotating wrappers", "statement": "SolidBodyRotationWrapper evaluates the wrapped potential at phi - omega t - pa in every method; forces stay gradients, and the Jacobi integral E - Omega Lz is conserved along every solution of the equations of motion.", "quantifier": "every wrapped potential, every solution of the equations of motion", "why_tests_cant": "Conservation must hold along all orbits.", "anchors": ["galpy/potential/SolidBodyRotationWrapperPotential.py", "galpy/potential/CorotatingRotationWrapperPotential.py"]}
{"id": "C18", "title": "Energy conservation of the equations of motion", "statement": "For a static potential with gradient forces, E = v^2/2 + Phi is constant along every solution of the equations of motion the integrators are given (cylindrical, planar, linear and rectangular forms).", "quantifier": "every potential, every solution", "why_tests_cant": "Tests follow some orbits for finite time with numerical tolerance.", "anchors": ["galpy/orbit/integrateFullOrbit.py:_EOM", "galpy/orbit/integrateFullOrbit.py:_rectForce", "galpy/orbit/integratePlanarOrbit.py:_planarEOM", "galpy/orbit/integrateLinearOrbit.py:_linearEOM"]}
{"id": "C19", "title": "Angular-momentum conservation", "statement": "Lz is constant along every solution in an axisymmetric potential; all three components are constant in a spherical one.", "quantifier": "every axisymmetric/spherical potential, every solution", "why_tests_cant": "As for energy.", "anchors": ["galpy/orbit/integrateFullOrbit.py:_EOM", "galpy/orbit/Orbits.py:Lz", "galpy/orbit/Orbits.py:L"]}
{"id": "C20", "title": "Rectangular and cylindrical equations of motion agree", "statement": "The rectangular force used by the symplectic integrators is minus the Cartesian gradient and describes the same motion as the cylindrical equations used by the other integrators.", "quantifier": "every potential, every point with R>0", "why_tests_cant": "Must hold everywhere for arbitrary potentials.", "anchors": ["galpy/orbit/integrateFullOrbit.py:_rectForce", "galpy/orbit/integrateFullOrbit.py:_EOM"]}
{"id": "C21", "title": "Variational equations use the exact force Jacobian", "statement": "The deviation equations integrated by integrate_dxdv have as matrix the exact Cartesian Jacobian of the rectangular force, which is symmetric, so phase-space volume is preserved.", "quantifier": "every consistent potential and point", "why_tests_cant": "Matrix identity at all points for all potentials.", "anchors": ["galpy/orbit/integrateFullOrbit.py:_EOM_dxdv", "galpy/orbit/integratePlanarOrbit.py:_planarEOM_dxdv"]}
{"id": "C22", "title": "Leapfrog is time-reversible and symplectic", "statement": "One leapfrog step followed by the step with reversed dt returns exactly to the start, for any number of steps; each step preserves the symplectic form and volume; in a central force field it conserves angular momentum exactly.", "quantifier": "every force function, every step size, every number of steps", "why_tests_cant": "Tests see only approximate energy conservation.", "anchors": ["galpy/util/symplecticode.py:leapfrog", "galpy/util/bovy_symplecticode.c"]}
{"id": "C23", "title": "Leapfrog output grid", "statement": "leapfrog returns one state per requested time, the first equal to the initial condition, and between consecutive outputs advances by an integer number of internal steps that exactly fill the interval, whatever tolerance is requested.", "quantifier": "every time array and every tolerance", "why_tests_cant": "Step-size selection depends on tolerance and force in unbounded ways.", "anchors": ["galpy/util/symplecticode.py:leapfrog", "galpy/util/symplecticode.py:_leapfrog_estimate_step"]}
{"id": "C24", "title": "Order and steps of the higher-order integrators", "statement": "One step of leapfrog, symplec4_c, symplec6_c, rk4_c, rk6_c and dopr54_c differs from the exact solution by the advertised power of the step (3, 5, 7, 5, 7, 6), the symplectic ones up to the rounding of their printed coefficients, which are palindromic and sum to one up to that rounding; the error estimate of dopr54_c is that of an embedded fourth-order method. The Runge-Kutta integrators return one row per requested time, at exactly that time, reached by whole steps of the method in the direction of integration; the adaptive loop of dopr54_c always ends; and an interrupt only cuts rows off and is reported.", "quantifier": "every right-hand side analytic at the starting point and every solution; every step, number of outputs, tolerance and interrupt", "why_tests_cant": "A slightly wrong coefficient only lowers the order of convergence; termination of an adaptive loop depends on the whole history of errors.", "anchors": ["galpy/util/bovy_symplecticode.c", "galpy/util/bovy_rk.c"]}
{"id": "C25", "title": "Celestial-Galactic rotation round trip", "statement": "radec_to_lb and lb_to_radec are inverse on the sphere and the proper-motion conversions are inverse and norm preserving; positions on the sky map to the same unit vector.", "quantifier": "every sky position (off the poles for longitudes) and proper motion", "why_tests_cant": "Branch selection depends on quadrant and poles.", "anchors": ["galpy/util/coords.py:radec_to_lb", "galpy/util/coords.py:lb_to_radec", "galpy/util/coords.py:pmrapmdec_to_pmllpmbb"]}
{"id": "C26", "title": "Sky to rectangular positions and velocities round trip", "statement": "lbd_to_XYZ and XYZ_to_lbd are inverse for d>0, and vrpmllpmbb_to_vxvyvz / vxvyvz_to_vrpmllpmbb are inverse, isometric up to the unit constant, and equal the time derivative of the position map.", "quantifier": "every position with d>0 and every velocity", "why_tests_cant": "Continuum of positions.", "anchors": ["galpy/util/coords.py:lbd_to_XYZ", "galpy/util/coords.py:vrpmllpmbb_to_vxvyvz", "galpy/util/coords.py:vxvyvz_to_vrpmllpmbb"]}
{"id": "C27", "title": "Heliocentric-Galactocentric round trip", "statement": "XYZ_to_galcenrect and galcenrect_to_XYZ are mutually inverse isometries, the velocity versions likewise, for either sign of Xsun and any Zsun.", "quantifier": "every Xsun != 0, Zsun, vsun and point", "why_tests_cant": "Sign branches on Xsun and rotation by arctan(Zsun/Xsun).", "anchors": ["galpy/util/coords.py:XYZ_to_galcenrect", "galpy/util/coords.py:galcenrect_to_XYZ", "galpy/util/coords.py:vxvyvz_to_galcenrect"]}
{"id": "C28", "title": "Cylindrical/spherical conversions", "statement": "rect_to_cyl/cyl_to_rect, cyl_to_spher/spher_to_cyl and their velocity versions are inverse on their domain and preserve speed.", "quantifier": "every point and velocity", "why_tests_cant": "Continuum of points, quadrant branches.", "anchors": ["galpy/util/coords.py:rect_to_cyl", "galpy/util/coords.py:cyl_to_spher", "galpy/util/coords.py:rect_to_cyl_vec"]}
{"id": "C29", "title": "Jacobian functions are the Jacobians of the transformations", "statement": "cyl_to_rect_jac, lbd_to_XYZ_jac, galcenrect_to_XYZ_jac, galcenrect_to_galcencyl_jac return exactly the derivative matrix of the corresponding transformation.", "quantifier": "every point of the domain", "why_tests_cant": "Up to 36 entries as functions of 6 variables.", "anchors": ["galpy/util/coords.py:cyl_to_rect_jac", "galpy/util/coords.py:lbd_to_XYZ_jac"]}
{"id": "C30", "title": "Prolate/oblate spheroidal coordinates", "statement": "uv_to_Rz and Rz_to_uv are inverse on the fundamental domain, and the momentum conversions vRvz_to_pupv/pupv_to_vRvz are inverse and preserve kinetic energy.", "quantifier": "every focal length and point", "why_tests_cant": "Continuum of points; oblate branch loses the sign of z.", "anchors": ["galpy/util/coords.py:uv_to_Rz", "galpy/util/coords.py:Rz_to_uv", "galpy/util/coords.py:vRvz_to_pupv"]}
{"id": "C31", "title": "Unit conversion factors are dimensionally consistent", "statement": "Factors of conversion.* satisfy the algebra of units: time*freq = 1, force*length = energy, density*length^3 = mass, surface density*length^2 = mass, G*M/r = v^2 with G from the same constants; pc and kpc variants differ by exact powers of 1000. Every output factor times its unit is the internal unit of the quantity, and every parser of inputs with units (lengths, velocities, times, masses also given as G M or M c^2, forces, densities, ...) gives back the internal number.", "quantifier": "every ro, vo > 0", "why_tests_cant": "Products of hard-coded constants for arbitrary scales.", "anchors": ["galpy/util/conversion.py:dens_in_msolpc3", "galpy/util/conversion.py:physical_conversion", "galpy/util/conversion.py:parse_mass", "galpy/util/conversion.py:parse_force"]}
{"id": "C32", "title": "Physical-output decision", "statement": "A decorated method returns a converted value exactly when the conversion is requested or the object-wide scales are set (for the scales the quantity needs), keyword arguments take precedence over the object, and otherwise the internal value is returned unchanged.", "quantifier": "every combination of object state and keywords", "why_tests_cant": "The decision table is large; tests sample it.", "anchors": ["galpy/util/conversion.py:physical_conversion"]}
{"id": "C33", "title": "turn_physical_on/off on combinations", "statement": "After any sequence of turn_physical_on/off and item assignment on a combination every member has the same unit status as the combination.", "quantifier": "every history of calls", "why_tests_cant": "History-dependent.", "anchors": ["galpy/potential/baseCompositePotential.py:turn_physical_on"]}
{"id": "C34", "title": "Incompatible units are rejected", "statement": "Combining objects with unit scales that are both set and differ by more than the tolerance raises; compatible() is symmetric and reflexive.", "quantifier": "every pair of scales and status", "why_tests_cant": "All combinations of set/unset and tolerance edges.", "anchors": ["galpy/util/conversion.py:physical_compatible"]}
{"id": "C35", "title": "Orbit indexing commutes with everything stored", "statement": "Indexing an Orbit with any index expression selects for every selected orbit its own initial condition, its own integrated trajectory and its own times.", "quantifier": "every shape, every index expression, integrated or not", "why_tests_cant": "Shapes and index expressions are unbounded.", "anchors": ["galpy/orbit/Orbits.py:__getitem__", "galpy/orbit/Orbits.py:_from_slice"]}
{"id": "C36", "title": "Continuing an integration", "statement": "A second integrate call whose times start at the end (or start, in the opposite direction) of the stored times extends the stored trajectory: no time is duplicated, times remain monotone, all stored states lie on one trajectory through the initial condition and the initial condition is unchanged.", "quantifier": "every history of integrate calls", "why_tests_cant": "Depends on the whole history of calls.", "anchors": ["galpy/orbit/Orbits.py:_integrate_impl", "galpy/orbit/Orbits.py:_should_continue_integration"]}
{"id": "C37", "title": "An indexed or deviation-integrated orbit can be integrated again", "statement": "integrate may be called on an orbit in any reachable state with valid arguments and never fails because of internal bookkeeping.", "quantifier": "every reachable state of an Orbit", "why_tests_cant": "Reachable-state property.", "anchors": ["galpy/orbit/Orbits.py:_should_continue_integration", "galpy/orbit/Orbits.py:_from_slice", "galpy/orbit/Orbits.py:integrate_dxdv"]}
{"id": "C38", "title": "Interrupted integration leaves the orbit usable", "statement": "If the integrator raises or is interrupted during a continued integration, the orbit still has its original initial condition and matching times/trajectory.", "quantifier": "every crash point inside integrate", "why_tests_cant": "Crash points.", "anchors": ["galpy/orbit/Orbits.py:_integrate_impl"]}
{"id": "C39", "title": "Choice of integrator", "statement": "The method actually used is always valid for the potential: no C integrator for potentials without C, no symplectic integrator for dissipative forces, and the method requested is used whenever it is admissible.", "quantifier": "every method string and potential combination", "why_tests_cant": "Two rewriting stages over strings and flags.", "anchors": ["galpy/orbit/Orbits.py:_check_method_c_compatible", "galpy/orbit/Orbits.py:_check_method_dissipative_compatible", "galpy/orbit/Orbits.py:check_integrator"]}
{"id": "C40", "title": "Negative radius post-processing", "statement": "When a non-symplectic integrator passes through R=0 and produces a negative radius, the returned state denotes the same position and velocity in space.", "quantifier": "every integrated state with R<0", "why_tests_cant": "Happens only for near-radial orbits.", "anchors": ["galpy/orbit/integrateFullOrbit.py:integrateFullOrbit", "galpy/orbit/integratePlanarOrbit.py:integratePlanarOrbit"]}
{"id": "C41", "title": "parallel_map is map", "statement": "parallel_map returns f(x) for each x, in the order of the input, for every number of processes and every scheduling of the workers; any worker error is reported.", "quantifier": "every input length, core count and schedule", "why_tests_cant": "Schedules and chunkings are unbounded.", "anchors": ["galpy/util/multi.py:parallel_map", "galpy/util/multi.py:run_tasks", "galpy/util/multi.py:worker"]}
{"id": "C42", "title": "save_pickles never leaves a truncated file", "statement": "At every crash or interrupt point the target path holds either its previous content or the complete new content.", "quantifier": "every interrupt point and number of interrupts", "why_tests_cant": "Crash points.", "anchors": ["galpy/util/__init__.py:save_pickles"]}
{"id": "C43", "title": "Configuration repair", "statement": "After loading, the configuration has every required section and key; existing user values are preserved; repairing twice is the same as once.", "quantifier": "every user configuration file content", "why_tests_cant": "All file contents.", "anchors": ["galpy/util/config.py"]}
{"id": "C44", "title": "Romberg and trapezoid quadrature", "statement": "The Romberg integrator returns the diagonal entry of the Richardson table at the first level where two successive diagonal entries differ by less than the absolute or relative tolerance, or the last level together with a warning. Column k of the table is exact for polynomials up to degree 2k+1, every entry is linear in the integrand, the error of level m is at most a constant times 4^-m for a twice differentiable integrand, and the integral over an empty interval is 0. The requested accuracy itself is not guaranteed.", "quantifier": "every integrand, interval, tolerance, level and number of divisions", "why_tests_cant": "All integrands and levels.", "anchors": ["galpy/util/quadpack.py:romberg"]}
{"id": "C45", "title": "logsumexp is shift invariant and stable", "statement": "logsumexp over an axis (or over everything) equals log(sum(exp(x))) along that axis and never exponentiates a positive number, for two-dimensional arrays; for one-dimensional arrays the default axis gives a different value.", "quantifier": "every array", "why_tests_cant": "All arrays.", "anchors": ["galpy/util/__init__.py:logsumexp"]}
{"id": "C46", "title": "rotate_to_arbitrary_vector is a rotation", "statement": "The matrix returned for unit vectors maps one onto the other and is orthogonal with determinant one, inv=True gives the inverse.", "quantifier": "every unit vector", "why_tests_cant": "Special cases near +-parallel vectors.", "anchors": ["galpy/util/__init__.py:_rotate_to_arbitrary_vector"]}
{"id": "C47", "title": "Orbit.flip reverses motion", "statement": "flip is an involution that negates all velocities and leaves positions unchanged; energies are unchanged and angular momentum changes sign.", "quantifier": "every orbit of every phase-space dimension", "why_tests_cant": "All states and dimensions.", "anchors": ["galpy/orbit/Orbits.py:flip"]}
{"id": "C48", "title": "Energies, angular momentum and Jacobi of orbits", "statement": "E, Lz, L, ER+Ez=E and Jacobi=E-OmegaP.L are consistent with each other for all states.", "quantifier": "every state and potential", "why_tests_cant": "All states.", "anchors": ["galpy/orbit/Orbits.py:E", "galpy/orbit/Orbits.py:Jacobi", "galpy/orbit/Orbits.py:Ez"]}
{"id": "C49", "title": "Harmonic-oscillator actions and angles", "statement": "actionAngleHarmonic: the action is E/omega, angle advances linearly at rate omega along the motion, and actionAngleHarmonicInverse is the exact inverse (canonical, area preserving).", "quantifier": "every omega>0, every phase-space point", "why_tests_cant": "All phase-space points.", "anchors": ["galpy/actionAngle/actionAngleHarmonic.py", "galpy/actionAngle/actionAngleHarmonicInverse.py"]}
{"id": "C50", "title": "Isochrone actions, frequencies and angles", "statement": "actionAngleIsochrone: H expressed through the actions reproduces the orbital energy; the frequencies are the partial derivatives of that Hamiltonian; bound orbits give nonnegative actions; pericentre and apocentre are the turning points. Along every orbit that is neither circular nor polar, and inclined or turning with positive angular momentum, each angle advances linearly at the returned frequency modulo 2 pi. actionAngleIsochroneInverse solves an equation with exactly one solution, and for inclined, non-circular, non-polar orbits the two classes are inverse to each other in both orders.", "quantifier": "every bound orbit (angles: of the kind named), every time, every amp>0 and b>=0", "why_tests_cant": "All bound orbits and all times; tests follow a few orbits.", "anchors": ["galpy/actionAngle/actionAngleIsochrone.py", "galpy/actionAngle/actionAngleIsochroneInverse.py"]}
{"id": "C51", "title": "C and Python implementations of potentials compute the same function", "statement": "For every potential with a C implementation, the formulas in C (forces, potential, second derivatives, density) equal the Python formulas including amplitude.", "quantifier": "every parameter and point", "why_tests_cant": "Tests compare orbits numerically.", "anchors": ["galpy/potential/potential_c_ext", "galpy/potential/ChandrasekharDynamicalFrictionForce.py", "galpy/potential/FDMDynamicalFrictionForce.py", "galpy/potential/potential_c_ext/SCFPotential.c", "galpy/potential/TwoPowerTriaxialPotential.py: TwoPowerTriaxialPotential"]}
{"id": "C52", "title": "Reduction to planar and vertical potentials", "statement": "toPlanarPotential of any 3D potential, force or combination gives the value and forces at z=0 (summed over the members; velocity-dependent forces at v_z=0), with methods that are the derivatives of the planar value; toVerticalPotential gives the difference from the midplane value at the reference time t0 at fixed R and phi, with the vertical force and its derivative; the RZ variants do the same for axisymmetric input only; exactly the stated inputs raise; a planar orbit in the reduced potential is a 3D orbit in the plane when the vertical force vanishes there.", "quantifier": "every potential or combination with any number of members, every point, time, velocity", "why_tests_cant": "Tests reduce a fixed list of built-in potentials at a few points; arbitrary combinations, user-defined potentials and times are not covered.", "anchors": ["galpy/potential/planarPotential.py", "galpy/potential/verticalPotential.py"]}
{"id": "C53", "title": "One-dimensional analytic potentials", "statement": "KGPotential, IsothermalDiskPotential: force = -dPhi/dx, second derivative exact; isothermal disk satisfies the 1D Poisson equation with density exp(-Phi/sigma^2).", "quantifier": "every parameter value and x", "why_tests_cant": "Tests compare against finite differences at a handful of radii and one or two parameter sets; they cannot exclude a wrong coefficient that is invisible there, nor establish the identity for all parameters and points.", "anchors": ["galpy/potential/KGPotential.py", "galpy/potential/IsothermalDiskPotential.py"]}
{"id": "C54", "title": "Planar analytic potentials and the bar", "statement": "HenonHeiles, CosmphiDisk, LopsidedDisk, EllipticalDisk, Steady- and TransientLogSpiral, and DehnenBar (3D and planar): forces and second derivatives are exact derivatives of the value, the value is the documented formula of the constructor's arguments (including cp/sp, pitch angle, resonance radii, growth times), and the C functions with the packed arguments are the same functions.", "quantifier": "every parameter value and point", "why_tests_cant": "Tests compare against finite differences at a handful of radii and one or two parameter sets; they cannot exclude a wrong coefficient that is invisible there, nor establish the identity for all parameters and points.", "anchors": ["galpy/potential/HenonHeilesPotential.py", "galpy/potential/CosmphiDiskPotential.py", "galpy/potential/EllipticalDiskPotential.py", "galpy/potential/SteadyLogSpiralPotential.py", "galpy/potential/TransientLogSpiralPotential.py", "galpy/potential/DehnenBarPotential.py", "galpy/potential/potential_c_ext"]}
{"id": "C55", "title": "Tilted/rotated/offset wrapper", "statement": "RotateAndTiltWrapperPotential evaluates the wrapped potential at the rotated and shifted point and rotates the force back, so its forces are gradients of its value.", "quantifier": "every wrapped potential, orthogonal matrix and offset", "why_tests_cant": "Arbitrary orientation.", "anchors": ["galpy/potential/RotateAndTiltWrapperPotential.py"]}
{"id": "C56", "title": "Non-inertial frame force", "statement": "NonInertialFrameForce equals Coriolis + centrifugal + Euler + linear acceleration terms, i.e. a free particle in an inertial frame moves, seen from the rotating frame, according to it.", "quantifier": "every rotation rate and acceleration history", "why_tests_cant": "All frame motions.", "anchors": ["galpy/potential/NonInertialFrameForce.py"]}
{"id": "C57", "title": "Dynamical time uses the mass at the requested time", "statement": "tdyn(R,t) = 2 pi R sqrt(R/(G M(<R,t))) with the mass at time t; for a spherical potential it is the period of the circular orbit.", "quantifier": "every time-dependent potential", "why_tests_cant": "Tests use static potentials.", "anchors": ["galpy/potential/Potential.py:tdyn"]}
{"id": "C58", "title": "Two-dimensional disk distribution functions", "statement": "For expSurfaceSigmaProfile the log=True values are the logarithms of the plain ones and the derivative methods are the exact derivatives. dehnendf and shudf evaluate Dehnen's and Shu's formulas in terms of the circular orbit of the given energy or angular momentum, put nothing on orbits they exclude, and are constant along orbits. The logarithmic derivatives used for Oort constants and evolved DFs are the partial derivatives of the logarithm of the DF. surfacemass, sigma2surfacemass and vmomentsurfacemass are the velocity moments of the DF; mean, dispersion, skewness, kurtosis and the Oort constants are the corresponding combinations of moments and of their exact radial derivatives.", "quantifier": "every profile with consistent derivatives, rotation-curve slope above -1, energy, angular momentum, phase-space point, moment order and integration range", "why_tests_cant": "Derivative identities, change of variables in the moments and constancy along orbits hold for a continuum of points, slopes and profiles; tests compare finite differences at a few radii with the default profile.", "anchors": ["galpy/df/surfaceSigmaProfile.py:expSurfaceSigmaProfile", "galpy/df/diskdf.py:dehnendf", "galpy/df/diskdf.py:shudf", "galpy/df/diskdf.py:schwarzschilddf", "galpy/df/diskdf.py:diskdf.vmomentsurfacemass", "galpy/df/diskdf.py:diskdf.oortA"]}
{"id": "C59", "title": "Spherical DFs reproduce the density and anisotropy they are built for", "statement": "A spherical distribution function is a function of energy and angular momentum that vanishes for unbound energies; its velocity-moment integrals computed by the shortcuts equal the integrals over all velocities; integrating it over velocity at any radius gives back the tracer density (closed-form Plummer, Hernquist, power-law models, Eddington inversion, Osipkov-Merritt and constant-anisotropy inversions), its second moments satisfy the Jeans equation and its anisotropy is the advertised 0, beta, or r^2/(r^2+ra^2); the density-derivative methods used by the inversions are the derivatives of the density.", "quantifier": "every radius, energy, angular momentum, moment order, model parameter in range and (for the inversions) every potential/tracer pair with a finite-mass-like falloff", "why_tests_cant": "The claim is an identity between integrals over unbounded velocity space for a continuum of radii and parameters; tests compare sampled quadratures to tolerance.", "anchors": ["galpy/df/sphericaldf.py", "galpy/df/isotropicPlummerdf.py", "galpy/df/isotropicHernquistdf.py", "galpy/df/constantbetaHernquistdf.py", "galpy/df/constantbetadf.py", "galpy/df/osipkovmerrittHernquistdf.py", "galpy/df/osipkovmerrittdf.py", "galpy/df/eddingtondf.py", "galpy/potential/TwoPowerSphericalPotential.py: _ddensdr, _d2densdr2, _ddenstwobetadr", "galpy/potential/PlummerPotential.py", "galpy/potential/PowerSphericalPotential.py"]}
{"id": "C60", "title": "dt check and time grids", "statement": "_check_integrate_dt accepts exactly step sizes dividing the output step (to tolerance); auto time array is evenly spaced from 0 to N tdyn.", "quantifier": "every t, dt", "why_tests_cant": "All grids.", "anchors": ["galpy/orbit/Orbits.py:_check_integrate_dt", "galpy/orbit/Orbits.py:_generate_auto_time_array"]}
{"id": "C61", "title": "Items and slices of a combination", "statement": "c[k] is the member at position k (from the end for negative k) or IndexError, c[i:j] is a new combination of exactly those members in order, and c[k]=pot replaces exactly that member; nothing else changes.", "quantifier": "every combination of any length reachable by any session, every integer index and slice bounds", "why_tests_cant": "Lengths, indices and histories are unbounded.", "anchors": ["galpy/potential/baseCompositePotential.py:__getitem__", "galpy/potential/baseCompositePotential.py:__setitem__"]}
{"id": "C62", "title": "Masses and surface densities are integrals of the density", "statement": "mass(R) and mass(R,z) equal the integral of dens over the ball, or over the cylinder between -z and z, whether they come from a closed form or from the force (Gauss' theorem), for single potentials and for combinations; surfdens(R,z) equals the integral of dens from -|z| to |z| whether it comes from a closed form, from integrating dens, or from the Poisson equation; non-axisymmetric potentials are refused.", "quantifier": "every axisymmetric potential whose methods are derivatives of its value (singular centres: every shell), every radius, height, time and amplitude; every list of potentials; every parameter and position for the closed forms of the Plummer, isochrone, Hernquist, Jaffe, NFW and Burkert classes", "why_tests_cant": "Tests compare two numerical routes at a few radii for a list of instances; agreement for every potential is the divergence theorem, and the closed forms switch formula at the scale radius.", "anchors": ["galpy/potential/Potential.py:mass", "galpy/potential/Potential.py:surfdens", "galpy/potential/CompositePotential.py:_mass", "galpy/potential/CompositePotential.py:_dens", "galpy/potential/PlummerPotential.py:_surfdens", "galpy/potential/IsochronePotential.py:_surfdens", "galpy/potential/TwoPowerSphericalPotential.py:_surfdens", "galpy/potential/BurkertPotential.py:_surfdens", "galpy/potential/SCFPotential.py:SCFPotential", "galpy/potential/TwoPowerTriaxialPotential.py: TwoPowerTriaxialPotential"]}
{"id": "C63", "title": "Samples of a spherical distribution function follow it", "statement": "sample() of a spherical distribution function draws radii that enclose the mass fraction of the tracer density (between the limiting radii where there are any), positions uniform over the sphere, velocity directions and speeds distributed as the distribution function itself at that radius, for the isotropic, constant-anisotropy and Osipkov-Merritt families; the returned coordinates describe exactly the point drawn, so that evaluating the distribution function at it gives the value it was drawn with; given R and z (and phi), only the velocity is drawn; rmin= is the smallest radius drawn.", "quantifier": "for all parameters of the distribution functions, all radii, angles and speeds at which the distribution is compared, and all values of the uniform random numbers", "why_tests_cant": "a test draws finitely many points and compares a histogram or a moment within a loose tolerance; a distribution that is wrong in one range, direction or parameter stays within it", "anchors": ["galpy/df/sphericaldf.py: sphericaldf.sample, _sample_r, _make_cmf_interpolator, _sample_position_angles, _sample_velocity_angles", "galpy/df/constantbetadf.py: _sample_eta, _p_v_at_r", "galpy/df/osipkovmerrittdf.py: _sample_eta, _sample_v, _p_v_at_r", "galpy/df/isotropicPlummerdf.py: _icmf", "galpy/df/isotropicHernquistdf.py: _icmf", "galpy/df/isotropicPowerLawdf.py: _icmf"]}
{"id": "C64", "title": "Zero point of ellipsoidal and two-power potentials", "statement": "The auxiliary function of every ellipsoidal potential is the documented integral of the density from the ellipsoid to infinity, and for densities that fall off fast enough the value of the potential tends to zero far from the centre in every direction, for every axis ratio, orientation, quadrature order and amplitude. The spherical two-power potentials of finite mass and the NFW potential tend to zero as well.", "quantifier": "every parameter of the classes, axis ratio, orientation, Gauss-Legendre rule or adaptive quadrature, amplitude and direction", "why_tests_cant": "Tests evaluate the potential near its scale radius and compare derivatives, which do not depend on a constant; a wrong constant in the value changes energies and escape velocities of potentials that are combined or compared, for a continuum of slopes.", "anchors": ["galpy/potential/TwoPowerTriaxialPotential.py: TwoPowerTriaxialPotential.__init__, _psi", "galpy/potential/EllipsoidalPotential.py: EllipsoidalPotential._evaluate", "galpy/potential/TwoPowerSphericalPotential.py: _evaluate"]}
{"id": "C65", "title": "Surfaces of section follow the orbit and find its crossings", "statement": "The points returned by SOS are the orbit's successive upward crossings of the surface (z=0, or x=0 or y=0 in the plane), in order and without omission, starting with the first one after the initial condition, or with the initial condition itself when the orbit starts on the surface; the times stored with them are the times of the crossings, the answer for one orbit does not depend on the other orbits of the object, and the initial condition of the object is kept. Integrating in the angle obeys the same equations of motion as integrating in time, in Python and in C. The brute-force section keeps exactly the steps over which the coordinate goes from negative to positive.", "quantifier": "every force (also depending on velocity and time), every orbit whose angle advances, any number of orbits, crossings and skipped steps, every starting angle and time", "why_tests_cant": "Tests compare a handful of orbits in a few potentials with the brute-force section within a tolerance; whether crossings can be skipped, repeated or shifted depends on the starting angle and the whole continuous orbit.", "anchors": ["galpy/orbit/Orbits.py:Orbit.SOS", "galpy/orbit/Orbits.py:Orbit.integrate_SOS", "galpy/orbit/Orbits.py:Orbit.bruteSOS", "galpy/orbit/integrateFullOrbit.py:_SOSEOM", "galpy/orbit/integratePlanarOrbit.py:_planarSOSEOMx", "galpy/orbit/integratePlanarOrbit.py:_planarSOSEOMy", "galpy/orbit/orbit_c_ext/integrateFullOrbit.c:evalSOSDeriv", "galpy/util/bovy_coords.c:cyl_to_sos_galpy"]}
{"id": "C66", "title": "The degree flag changes units and nothing else", "statement": "For every sky-coordinate function with a degree flag, the result with degree=True is the radian result for the angles converted to radians, with the returned angles in degrees and all other values unchanged; in particular round trips in degrees return the angles given. This holds however the angles and the flag are passed.", "quantifier": "all decorated functions, all argument values, all splits of the arguments into positional and keyword ones", "why_tests_cant": "The set of functions, values and call styles is unbounded; tests call each function in one style at a few angles.", "anchors": ["galpy/util/coords.py:degreeDecorator", "galpy/util/coords.py:scalarDecorator", "galpy/util/coords.py:radec_to_lb", "galpy/util/coords.py:lb_to_radec", "galpy/util/coords.py:lbd_to_XYZ", "galpy/util/coords.py:XYZ_to_lbd"]}
{"id": "C67", "title": "Covariance functions carry the covariance of the transformed quantities", "statement": "For every sample of proper motions or velocities, the covariance function applied to the covariance matrix of the sample gives the covariance matrix of the transformed sample (for the maps that are linear at a fixed position); the function from distance, line-of-sight velocity and proper motions gives the covariance propagated with the Jacobian of the transformation, with distance or parallax.", "quantifier": "all samples of all sizes, all positions and covariance matrices", "why_tests_cant": "Tests compare a Monte Carlo estimate at a few positions with loose tolerance, mostly for isotropic input, for which a wrong rotation is invisible.", "anchors": ["galpy/util/coords.py:cov_pmrapmdec_to_pmllpmbb", "galpy/util/coords.py:cov_dvrpmllbb_to_vxyz", "galpy/util/coords.py:cov_vxyz_to_galcenrect", "galpy/util/coords.py:cov_galcenrect_to_galcencyl", "galpy/util/coords.py:cov_vxyz_to_galcencyl"]}
{"id": "C68", "title": "Distance and longitude in the plane against radius and azimuth", "statement": "dl_to_rphi_2d returns the Galactocentric radius and azimuth of the point at the given distance and longitude from the observer, on both sides of the tangent point, rphi_to_dl_2d is the reverse, and the two undo each other on the ranges they return.", "quantifier": "all distances, longitudes, radii, azimuths and observer positions other than the degenerate points", "why_tests_cant": "The branch between the near and far side depends continuously on the input; tests sample a few points on each side.", "anchors": ["galpy/util/coords.py:dl_to_rphi_2d", "galpy/util/coords.py:rphi_to_dl_2d"]}
{"id": "C69", "title": "Inputs with units and action-angle outputs", "statement": "A method of a potential or an action-angle object called with quantities (positions, velocities, angles, times, masses with units) sees exactly the internal numbers those quantities stand for, in the scales given as keywords or else those of the object; wrong units raise instead of giving a number. The outputs of action-angle methods are the internal actions, frequencies, angles, positions and velocities times their internal units, entry by entry, whatever the number of points.", "quantifier": "every combination of arguments, units, scales and object state", "why_tests_cant": "Tests call each method with a few units and single points; the argument combinations and lengths are unbounded.", "anchors": ["galpy/util/conversion.py:potential_physical_input", "galpy/util/conversion.py:physical_conversion_actionAngle", "galpy/util/conversion.py:actionAngle_physical_input", "galpy/util/conversion.py:physical_conversion_actionAngleInverse", "galpy/util/conversion.py:actionAngleInverse_physical_input"]}
{"id": "C70", "title": "Wrappers that substitute coordinates", "statement": "KuzminLikeWrapperPotential and CylindricallySeparablePotentialWrapper are, for any wrapped axisymmetric potential, the documented transformation of it (the in-plane potential at xi with xi^2 = R^2 + (a + sqrt(z^2+b^2))^2; the sum of the in-plane and the vertical potential at the pivot radius), evaluated at the requested time and whatever unit settings the wrapped potential carries. Their forces are minus the gradient of that value, their second derivatives its Hessian, their density solves the Poisson equation, and their C versions return the same numbers as the Python methods.", "quantifier": "every wrapped axisymmetric potential, all wrapper parameters, amplitudes, positions off the singular set, times and unit settings", "why_tests_cant": "The wrapped potential is an arbitrary user object; tests wrap a few potentials, always with default unit settings and mostly static ones.", "anchors": ["galpy/potential/KuzminLikeWrapperPotential.py:KuzminLikeWrapperPotential", "galpy/potential/CylindricallySeparablePotentialWrapper.py:CylindricallySeparablePotentialWrapper", "galpy/potential/potential_c_ext/KuzminLikeWrapperPotential.c", "galpy/potential/potential_c_ext/CylindricallySeparablePotentialWrapper.c"]}
{"id": "C71", "title": "Results do not depend on what was evaluated before", "statement": "Potentials and forces that remember their last evaluation (to avoid repeating an expensive computation) return, for every sequence of calls on one object, for each call the value a freshly made object would return for that method at that point and time. Setting a parameter between calls has its effect from the next call on.", "quantifier": "all sequences of method calls of any length, with arbitrary points, times and methods in any order, from a fresh object", "why_tests_cant": "The result depends on the history of calls; tests evaluate each method at a few points in a fixed order.", "anchors": ["galpy/potential/SoftenedNeedleBarPotential.py:SoftenedNeedleBarPotential", "galpy/potential/EllipsoidalPotential.py:EllipsoidalPotential", "galpy/potential/FerrersPotential.py:FerrersPotential", "galpy/potential/ChandrasekharDynamicalFrictionForce.py:ChandrasekharDynamicalFrictionForce", "galpy/potential/PowerSphericalPotentialwCutoff.py", "galpy/potential/potential_c_ext/PowerSphericalPotentialwCutoff.c", "galpy/potential/ChandrasekharDynamicalFrictionForce.py", "galpy/potential/FDMDynamicalFrictionForce.py", "galpy/potential/SCFPotential.py:SCFPotential", "galpy/potential/potential_c_ext/SCFPotential.c"]}
{"id": "C72", "title": "normalize=norm makes the potential supply the fraction norm of the squared circular velocity at R=1", "statement": "A potential created with normalize=norm (True means 1), or on which normalize(norm) is called, has inward radial force norm at R=1, z=0, so its circular velocity there is the square root of norm; only the amplitude changes, by a positive factor when norm is positive, and the last call decides irrespective of earlier amplitudes and calls. A combination of normalized attractive potentials has circular velocity equal to the square root of the sum of their norms at R=1. In particular MWPotential2014 and MWPotential have circular velocity 1 there, and MWPotential2014's forces, second derivatives and density are consistent with its potential everywhere outside the centre.", "quantifier": "every potential with a nonzero force at R=1, every positive amplitude, every norm, every list of potentials and norms", "why_tests_cant": "Tests normalize a fixed list of potentials with a few values and compare numerically; they cannot cover all parameters, nor show that the result does not depend on earlier calls.", "anchors": ["galpy/potential/Potential.py:Potential.normalize", "galpy/potential/mwpotentials.py:MWPotential2014", "galpy/potential/mwpotentials.py:_MWPotential", "galpy/potential/PowerSphericalPotentialwCutoff.py:PowerSphericalPotentialwCutoff.__init__"]}
{"id": "C73", "title": "NFW virial radius, concentration, virial mass, rmax and vmax mean what they say", "statement": "rvir of an NFW potential is the one radius within which the mean density is overdens times the critical (or mean matter) density, and it raises exactly when that radius is not between 0.01 and 100 scale radii. A potential created with conc and mvir reports them back from conc and mvir, for every convention H, Om, overdens, wrtcrit and every concentration between 0.01 and 100. A potential created with rmax and vmax reports them back, and they are the position and height of the one maximum of its rotation curve to within 2e-8 scale radii and a relative 1e-7 in the square of the velocity.", "quantifier": "every positive amplitude and scale radius, all positive unit conversions ro and vo, all positive H, Om, overdens, both conventions, all concentrations and masses", "why_tests_cant": "Tests check a few concentrations and masses; uniqueness of the virial radius, of the maximum of the rotation curve and the exact range where the search succeeds are statements about all real parameters.", "anchors": ["galpy/potential/TwoPowerSphericalPotential.py:NFWPotential.__init__", "galpy/potential/TwoPowerSphericalPotential.py:NFWPotential.rvir", "galpy/potential/TwoPowerSphericalPotential.py:NFWPotential.rmax", "galpy/potential/TwoPowerSphericalPotential.py:NFWPotential.vmax", "galpy/potential/Potential.py:Potential.mvir", "galpy/potential/Potential.py:Potential.conc"]}
{"id": "C74", "title": "EinastoPotential has the documented density for each way of giving its scale", "statement": "An EinastoPotential created with amp and h, rs or rm2 has the density documented for that convention: amp exp(-(r/h)^(1/n)), amp exp(-dn[(r/rs)^(1/n)-1]) or amp exp(-2n[(r/rm2)^(1/n)-1]); rs contains half of the total mass and rm2 is the one radius where the logarithmic slope of the density is -2.", "quantifier": "all positive n, scales, radii and all amplitudes", "why_tests_cant": "Tests check half-mass radius and slope with normalize=1 for a few n, which hides the amplitude; the statement is about all amplitudes, scales and indices.", "anchors": ["galpy/potential/EinastoPotential.py:EinastoPotential.__init__", "galpy/potential/EinastoPotential.py:EinastoPotential._rdens", "galpy/potential/EinastoPotential.py:EinastoPotential._calculate_dn"]}
{"id": "C75", "title": "Spherical Jeans dispersions solve the Jeans equation", "statement": "jeans.sigmar(Pot, r, dens, beta) returns the radial velocity dispersion for which the spherical Jeans equation d(nu sigma^2)/dr + 2 beta nu sigma^2 / r = nu F holds with the tracer density, the anisotropy and the radial force of the given potential, and for which the pressure times the anisotropy's integrating factor vanishes at infinity; it is the only such function; the shortcut for a constant beta gives the same number as the general formula; and jeans.sigmalos returns the density-weighted line-of-sight projection of that dispersion, so that for a constant isotropic dispersion it returns that dispersion.", "quantifier": "every spherical potential, tracer density and anisotropy profile (constant or function of radius) for which the integral converges, and every positive radius", "why_tests_cant": "Tests compare with a handful of closed-form models at sampled radii; that the integral formula solves the differential equation for every density and anisotropy, with the right boundary condition, is a statement about all profiles.", "anchors": ["galpy/df/jeans.py: sigmar", "galpy/df/jeans.py: sigmalos"]}
{"id": "C76", "title": "Dynamical friction opposes the motion with the documented size, in Python and in C", "statement": "The force of ChandrasekharDynamicalFrictionForce on a moving body outside minr is antiparallel to its velocity, with the documented coefficient, so that it never adds kinetic energy; inside minr it vanishes; FDMDynamicalFrictionForce gives that force times a factor between 0 and 1 that does not jump between its regimes; setting GMs or rhm afterwards is the same as constructing the object with the new value and earlier evaluations have no effect; pickling keeps the force; the C version gives the same force; and the C Jacobian used for phase-space volumes is the matrix of partial derivatives of the rectangular force with respect to position and velocity.", "quantifier": "every background density and dispersion, mass, half-mass radius, gamma and constant or variable Coulomb logarithm, every position, velocity and time, every sequence of force calls and setter calls on one object and every sequence of C calls with one argument array", "why_tests_cant": "Tests follow a few decaying orbits in isothermal haloes and compare Python with C along them; the direction and sign of the force, its independence of the call history and the exactness of a 3-by-6 Jacobian are statements about all velocities, profiles and histories.", "anchors": ["galpy/potential/ChandrasekharDynamicalFrictionForce.py: ChandrasekharDynamicalFrictionForce", "galpy/potential/FDMDynamicalFrictionForce.py: FDMDynamicalFrictionForce", "galpy/potential/potential_c_ext/ChandrasekharDynamicalFrictionForce.c", "galpy/potential/potential_c_ext/FDMDynamicalFrictionForce.c", "galpy/orbit/integrateFullOrbit.py: _parse_pot"]}
{"id": "C77", "title": "Action-angle coordinates of spherical and one-dimensional potentials are constants of the motion and linear angles", "statement": "Along every orbit between two turning points in a spherical potential, actionAngleSpherical returns the same actions and frequencies at all times and angles that advance linearly at those frequencies modulo 2 pi; the radius repeats after 2 pi / Or, the radial action is the integral of the squared radial velocity over that period divided by 2 pi, and EccZmaxRperiRap returns the least and largest radius actually reached. actionAngleVertical does the same for every oscillation in a symmetric one-dimensional potential and agrees with actionAngleHarmonic for the harmonic oscillator. The three entry points of an object (actions, actionsFreqs, actionsFreqsAngles) agree on what they share.", "quantifier": "every spherical potential with a continuous radial force, every symmetric one-dimensional potential increasing away from the centre, every orbit whose turning points the searches can find, and all times", "why_tests_cant": "Tests integrate a few orbits in two or three potentials and check that the actions vary by less than a tolerance; the claim is about every potential function, every orbit and every time, through the singular integrals at the turning points and all branches of the angle formulas.", "anchors": ["galpy/actionAngle/actionAngleSpherical.py: actionAngleSpherical", "galpy/actionAngle/actionAngleVertical.py: actionAngleVertical", "galpy/actionAngle/actionAngleHarmonic.py: actionAngleHarmonic"]}
{"id": "C78", "title": "Action-angle coordinates of Staeckel potentials are constants of the motion and linear angles", "statement": "In an axisymmetric Staeckel potential, with the focal distance of the potential, actionAngleStaeckel returns along every bound orbit the same actions (the loop integrals of the momenta over 2 pi) and frequencies at all times and angles that advance linearly at those frequencies modulo 2 pi, whatever reference u0 is given; calling the object and actionsFreqsAngles return the same actions; the third integral is conserved; EccZmaxRperiRap returns bounds that the orbit never leaves; and estimateDeltaStaeckel recovers the focal distance from the forces and second derivatives at any single point.", "quantifier": "every Staeckel potential symmetric about the plane, every bound orbit in it, every time along the orbit, every positive u0 and every point off the axis", "why_tests_cant": "Tests integrate a few orbits in one Kuzmin-Kutuzov potential and accept drifts of some percent; they cannot establish exact conservation and linearity for all Staeckel potentials and all orbits.", "anchors": ["galpy/actionAngle/actionAngleStaeckel.py: actionAngleStaeckel, actionAngleStaeckelSingle, estimateDeltaStaeckel", "galpy/potential/KuzminKutuzovStaeckelPotential.py: KuzminKutuzovStaeckelPotential", "galpy/util/coords.py: Rz_to_uv, uv_to_Rz, vRvz_to_pupv"]}
{"id": "C79", "title": "Evaluating at arrays of positions is elementwise", "statement": "Evaluating a potential whose methods accept arrays at arrays of positions (radii, heights, azimuths, each an array or a number standing for equal entries) returns the array of the values at the individual positions; at numbers it returns the number.", "quantifier": "every combination of numbers and arrays of any equal length for R, z and phi, all entries, all parameters", "why_tests_cant": "Tests compare arrays with loops on a few fixed shapes; which combination of shapes triggers a wrong broadcast or a summation over the wrong axis depends on every combination of argument kinds and lengths.", "anchors": ["galpy/potential/SpiralArmsPotential.py: SpiralArmsPotential._evaluate", "galpy/potential/DehnenBarPotential.py: DehnenBarPotential._evaluate"]}
{"id": "C80", "title": "A moving object acts as its own potential carried along its orbit", "statement": "At every instant the value, force vector and density of MovingObjectPotential at any displacement from the object are those of the object's own potential at that displacement from its centre, whatever the orbit.", "quantifier": "every axisymmetric kernel symmetric about its plane, every orbit of the object, every time, every field point off the vertical line through the object", "why_tests_cant": "Tests compare one object on one orbit at a few points; the rotation of the force into the cylindrical frame of the field point must be right for every pair of positions.", "anchors": ["galpy/potential/MovingObjectPotential.py: MovingObjectPotential._evaluate, _Rforce, _zforce, _phitorque, _dens"]}
{"id": "C81", "title": "Impulse kicks are the time integral of the perturber's acceleration", "statement": "The velocity kick returned by impulse_deltav_plummer, impulse_deltav_hernquist, impulse_deltav_general, their curved-stream versions and impulse_deltav_plummerstream is the integral over all times of the acceleration that the perturber, flying by on a straight line at the given impact parameter, exerts on a star moving on a straight line.", "quantifier": "every stream velocity and position along the stream, every perturber velocity, impact parameter, mass and size, every radial force law for the general version", "why_tests_cant": "Tests compare the closed forms with one another or with an orbit integration for a few encounters; that the closed form is the integral for every direction, including the rotation into the frame of the stream, needs a proof, and the special cases are missed by samples.", "anchors": ["galpy/df/streamgapdf.py: impulse_deltav_plummer, impulse_deltav_plummer_curvedstream, HernquistX, impulse_deltav_hernquist, impulse_deltav_hernquist_curvedstream, _a_integrand, _deltav_integrate, impulse_deltav_general, impulse_deltav_general_curvedstream, impulse_deltav_plummerstream"]}
{"id": "C82", "title": "Adaptive rejection sampling draws from the requested density", "statement": "ars.ars, given a strictly concave function h and its derivative on a bounded or unbounded interval and starting abscissae on both sides of the peak, returns the requested number of samples inside the interval; candidates are drawn exactly from the exponential of the lowest tangent at the points visited so far, the result of a sequence of updates depends only on the set of these points, acceptance never exceeds one, and the accepted samples are distributed as exp(h). streamdf.sample and diskdf.sample use it with functions and derivatives that match.", "quantifier": "every strictly concave function, every domain, every list of starting abscissae, every sequence of uniform random numbers and every history of hull updates", "why_tests_cant": "Tests compare the mean and scatter of a few thousand samples with loose tolerances; a comparison with the wrong tangent biases the samples by less than such tolerances, and the history of updates differs for each random seed.", "anchors": ["galpy/util/ars.py: ars, setup_hull, sampleone, sample_hull, evaluate_hull, update_hull", "galpy/df/streamdf.py: streamdf._sample_aAt, _h_ars, _hp_ars", "galpy/df/diskdf.py: diskdf.sample, _ars_hx, _ars_hpx, DFcorrection.correct"]}
{"id": "C83", "title": "Evolved disk distribution functions carry the initial density along orbits", "statement": "evolveddiskdf(o, t) is the initial distribution function evaluated where the orbit through o at time t was at the initial time: constant along orbits, unchanged by evolution in an axisymmetric static potential when the initial function depends on the integrals, with log and the deriv=R, phi options consistent with it, and evaluating a list of times returns the same values as evaluating each time separately.", "quantifier": "every force, initial distribution function, phase-space point, time, and every list of times, for each integration method", "why_tests_cant": "Tests evaluate a handful of times in one weak bar potential, where values at neighbouring times hardly differ; the bookkeeping of backward integration for lists of times has one path per method and per position of the initial time in the list.", "anchors": ["galpy/df/evolveddiskdf.py: evolveddiskdf.__call__, _create_ts_tlist"]}
{"id": "C84", "title": "Moments and Oort constants of evolved disks on velocity grids", "statement": "On a velocity grid, meanvR, meanvT, sigmaR2, sigmaT2, sigmaRT of evolveddiskdf are the mean and covariance of the weights on the grid (so dispersions are nonnegative and satisfy Cauchy-Schwarz), vertexdev is the angle of a principal axis of the velocity ellipsoid, and oortA, oortB, oortC, oortK are the shear, vorticity, shear and divergence of the mean velocity field.", "quantifier": "every grid size, grid and set of values on it with nonzero total weight, every smooth dependence of the values on position", "why_tests_cant": "Tests compare with an axisymmetric disk, for which vertex deviation, C and K vanish, so that signs and factors of these are not exercised.", "anchors": ["galpy/df/evolveddiskdf.py: evolveddiskdf.meanvR, meanvT, sigmaR2, sigmaT2, sigmaRT, vertexdev, oortA, oortB, oortC, oortK, _vmomentsurfacemass grid evaluation"]}
{"id": "C85", "title": "Distribution functions marginalized over a velocity component", "statement": "diskdf(o, marginalizeVperp=True) and diskdf(o, marginalizeVlos=True), and the same calls of evolveddiskdf at time t, are the integral of the distribution function over all planar velocities with the given line-of-sight velocity (velocity along the longitude), restricted to nsigma dispersions; the two integration variables used in different directions give the same integral, and with growing nsigma the restriction disappears.", "quantifier": "every position, longitude, velocity, nsigma, rotation-curve slope, surface-density and dispersion profile, every time", "why_tests_cant": "Tests compare with a direct integration for a few longitudes; which variable is integrated over changes with the direction and factors such as 1/|cos| only show on one side of the switch.", "anchors": ["galpy/df/diskdf.py: diskdf.__call__, _call_marginalizevperp, _call_marginalizevlos", "galpy/df/evolveddiskdf.py: evolveddiskdf.__call__, _call_marginalizevperp, _call_marginalizevlos"]}
{"id": "C86", "title": "Closed forms of the smooth stream model are integrals of its frequency distribution", "statement": "For streamdf, density_par is the integral of pOparapar over all frequencies, meanOmega and sigOmega are its mean and dispersion, ptdAngle is the distribution of the stripping time angle/frequency, meantdAngle and sigtdAngle its mean and dispersion, and meanangledAngle and sigangledAngle are mean and dispersion of the perpendicular angle distributed as pangledAngle.", "quantifier": "every mean offset, eigenvalues, disruption time, initial angle spread and positive angle offset", "why_tests_cant": "Tests sample one stream with an offset of six dispersions and compare to a few percent; wrong integration limits or a forgotten argument only show for other offsets and spreads.", "anchors": ["galpy/df/streamdf.py: streamdf.pOparapar, density_par, _density_par, meanOmega, sigOmega, ptdAngle, meantdAngle, sigtdAngle, pangledAngle, meanangledAngle, sigangledAngle"]}
{"id": "C87", "title": "Closed forms of the stream with a gap are integrals of the kicked frequency distribution", "statement": "For streamgapdf with a piecewise-linear kick, minOpar is the smallest frequency with a positive pOparapar, density_par is the integral of pOparapar over all frequencies and meanOmega its mean, with and without the approximation; for splines of higher order, higherorder=True adds the first-order effect of the higher powers; without a kick the model is the smooth one.", "quantifier": "every number and spacing of nodes, node values, impact time, disruption time, frequency distribution, spline order, and angle offset within reach of the stream", "why_tests_cant": "Tests compare the approximations to each other and to sampling for one impact at a tolerance larger than the higher-order terms, whose sign is therefore not exercised; the selection of the interval that bounds the integral depends on all pieces of the kick.", "anchors": ["galpy/df/streamgapdf.py: streamgapdf.pOparapar, _density_par, _density_par_approx, _density_par_approx_higherorder, _densMoments_approx_higherorder_gaussxpolyInts, minOpar, meanOmega, _meanOmega_num_approx, _meanOmega_num_approx_higherorder"]}
{"id": "C88", "title": "Coefficients of a basis-function expansion are recovered from its density and from particles", "statement": "The functions computing SCF coefficients return the coefficients of an expansion when given its density, so that computing them twice changes nothing; coefficients of a set of particles are the mass-weighted projection on the same basis functions as those of a density; the spherical, axisymmetric and general functions agree on systems with the symmetry; splitting particles or times in batches does not change the result.", "quantifier": "every number of radial functions and multipoles, coefficients, scale, density, list of particles, grid of times, batch size and quadrature orders with the given Gauss-Legendre rules", "why_tests_cant": "Tests use small expansions, for which twenty nodes integrate every product exactly, and compare particles with densities to a few percent; whether the default number of nodes suffices depends on both array sizes, and the agreement of the batches on the number of particles.", "anchors": ["galpy/potential/SCFPotential.py: scf_compute_coeffs_spherical, scf_compute_coeffs_axi, scf_compute_coeffs, scf_compute_coeffs_spherical_nbody, scf_compute_coeffs_axi_nbody, scf_compute_coeffs_nbody, _gaussianQuadrature, _batched_nbody, _nbody_batch_size, _batched_timedep"]}
{"id": "C89", "title": "A disk expansion reproduces its target density up to the error of the expansion of the residual", "statement": "For DiskSCFPotential and every object combining closed-form disk pairs with an expansion, the density of the object minus the target density is exactly the density of the expansion minus the residual it was computed for, so the target is reproduced exactly when the residual is a finite expansion of the orders asked for; the order of the disk components and repeating one vertical profile do not matter, and a description is accepted exactly when it names known profiles in matching numbers.", "quantifier": "every target density of two or three arguments, list of surface-density and vertical-profile descriptions (including user functions), orders of the expansion, scale, amplitude and point", "why_tests_cant": "Tests compare the density of three disks with the target on a grid to a tolerance that absorbs a wrong sign or factor in small components; exactness for all lists, orders and points needs the algebra of the splitting and of the coefficients.", "anchors": ["galpy/potential/KuijkenDubinskiDiskExpansionPotential.py: _parse_Sigma, _parse_hz, _phiME_dens, _dens, _evaluate", "galpy/potential/DiskSCFPotential.py: DiskSCFPotential.__init__"]}
{"id": "C90", "title": "The quasi-isothermal distribution function, its moments and its marginal distributions", "statement": "quasiisothermaldf returns the quasi-isothermal function of the actions, its logarithm on request, the same for arrays as for single points, and is normalised so that it gives the surface density of the disk per angular momentum. density, sigmaR2, sigmaz2, sigmaRz, sigmaT2, tilt, meanvR, meanvT, meanvz and the Monte Carlo estimates are the moments of this function over velocity within the range asked for, pvR, pvT, pvz, pvRvT, pvTvz, pvRvz are its marginal distributions, surfacemass_z integrates the density to the given height, and estimated scale lengths are those of the profile.", "quantifier": "every parameter of the function, actions, continuous distribution over velocities, position, moment order, velocity range, convergent order of integration with the Gauss-Legendre rules, random draws in expectation", "why_tests_cant": "Tests compare dispersions with input parameters to ten percent and ratios in which missing factors cancel; that the sums converge to the integrals for all orders and ranges, and the absolute normalisation for every kind of action-angle object, cannot be seen from values at a few points.", "anchors": ["galpy/df/quasiisothermaldf.py: quasiisothermaldf.__call__, _rg, _vmomentdensity, density, sigmaR2, sigmaT2, tilt, pvR, pvT, pvz, pvRvT, pvTvz, pvRvz, surfacemass_z, estimate_hr, estimate_hz, estimate_hsr"]}
{"id": "C91", "title": "King models are self-consistent", "statement": "kingdf's distribution function has, in the potential returned by KingPotential with the same parameters, the density returned by dens, at every radius within the tidal radius and none beyond it; that density is also the Laplacian of the potential, its total mass is the mass asked for, the potential is that of a point mass outside the tidal radius and continuous there, the central density, King radius and velocity scale satisfy King's relation, and the tabulated profile solves Poisson's equation from the centre to the tidal radius with cumulative masses that are the masses enclosed.", "quantifier": "every central potential above 1.5e-4, mass, tidal radius, radius, number of grid points, exact solution of the differential equations", "why_tests_cant": "Tests compare a few concentrations with tables to a percent and sampled profiles to several percent; that the two systems solved join into one solution and that distribution function, density and potential agree exactly for every parameter cannot be seen from samples.", "anchors": ["galpy/df/kingdf.py: kingdf.__init__, dens, fE, _scalefreekingdf.solve, _dens_W", "galpy/potential/KingPotential.py: KingPotential.__init__", "galpy/potential/interpSphericalPotential.py: interpSphericalPotential"]}
{"id": "C92", "title": "The exponentially truncated NFW potential: truncation, total mass and conversion from NFW", "statement": "ExpTruncNFWPotential is the NFW density of the same amplitude and scale times exp(-r/rc): its potential, force, second derivative, mass and derivatives of the density belong to that density at every radius, its total mass is finite and is the one given as mass, the profile tends to the NFW one when rc grows, values at the centre are limits, and from_nfw keeps the amplitude and scale and, given any mass it accepts, finds the only truncation radius with this total mass; every positive mass can be reached.", "quantifier": "every positive scale, truncation radius, amplitude, mass, radius, root finder that returns a zero in its bracket", "why_tests_cant": "Tests compare the potential with numerical integrals for a few ratios a/rc and from_nfw for a few masses; uniqueness of the truncation radius, the size of the error of the series near the centre for all parameters and the range of masses for which the conversion succeeds need a proof.", "anchors": ["galpy/potential/ExpTruncNFWPotential.py: ExpTruncNFWPotential.__init__, from_nfw, _F_closed, _F_series, _G, _revaluate, _rforce, _r2deriv, _rdens, _mass, _ddensdr, _d2densdr2, _ddenstwobetadr, _rforce_jax", "galpy/potential/potential_c_ext/ExpTruncNFWPotential.c", "galpy/potential/TwoPowerSphericalPotential.py: NFWPotential"]}
{"id": "C93", "title": "Potentials with numerical derivatives", "statement": "A potential that only defines its value and takes its forces and second derivatives from NumericalPotentialDerivativesMixin has forces, second and mixed derivatives that differ from the true ones by at most a multiple of the square of the step times the size of the next derivatives, that tend to the true ones with the step wherever these exist, that vanish in azimuth for axisymmetric potentials and vertically in the plane of symmetric ones, and that never need the potential at a smaller radius.", "quantifier": "every potential with bounded third or fourth derivatives, position, time, positive steps", "why_tests_cant": "Tests compare the numerical derivatives with analytic ones at some points of three potentials; that each stencil has second-order accuracy for every smooth potential, including the mixed ones with their different normalisations, is a statement about all functions.", "anchors": ["galpy/potential/NumericalPotentialDerivativesMixin.py: NumericalPotentialDerivativesMixin"]}
{"id": "C94", "title": "Actions, frequencies and angles in the adiabatic approximation", "statement": "actionAngleAdiabatic gives the action of the vertical motion at the current radius, the angular momentum and the radial action of the motion in the plane with the angular momentum enlarged by gamma times the vertical action. With gamma=0 it is exact in every potential that is the sum of a function of R and a function of z: actions are constant along every bound orbit and equal to the integrals of the squared velocities over a period, the angles advance linearly at the returned frequencies, and EccZmaxRperiRap returns the least radius and the largest height, which are reached, and a distance that is never exceeded.", "quantifier": "every separable potential, every bound orbit of it at every time; every potential, gamma and point for the radial action", "why_tests_cant": "Tests check the conservation of the actions along a few integrated orbits with tolerances that hide the approximation; that the coordinates are exact in all separable potentials, and at which points the correction by gamma is not applied consistently, concerns every potential and orbit.", "anchors": ["galpy/actionAngle/actionAngleAdiabatic.py: actionAngleAdiabatic._evaluate, _actionsFreqs, _actionsFreqsAngles, _EccZmaxRperiRap", "galpy/actionAngle/actionAngleSpherical.py: _evaluate, _actionsFreqs, _actionsFreqsAngles, _EccZmaxRperiRap, _calc_rperi_rap, _rapRperiAxiFindStart (with _gamma and _Jz)", "galpy/actionAngle/actionAngleVertical.py: actionAngleVertical", "galpy/potential/verticalPotential.py: verticalPotential"]}
{"id": "C95", "title": "Potentials made into Staeckel potentials", "statement": "OblateStaeckelWrapperPotential gives a Staeckel potential with the given focal distance that equals the wrapped potential at every point of the plane and of the spheroid of the reference value u0 (in particular at the point given as u0), and that equals the wrapped potential everywhere if that is a Staeckel potential with this focal distance. Its forces and second derivatives are the derivatives of its value, up to the 1e-12 that is added to tanh(u), and the C and Python versions agree, in the plane too.", "quantifier": "every wrapped axisymmetric potential with two derivatives, every focal distance, amplitude and reference value, every point off the axis", "why_tests_cant": "Tests compare the forces with finite differences at a few points for one or two wrapped potentials; the claim is about every wrapped potential and every point, and rests on an identity in prolate spheroidal coordinates that no sample settles.", "anchors": ["galpy/potential/OblateStaeckelWrapperPotential.py: OblateStaeckelWrapperPotential.__init__, _evaluate, _Rforce, _zforce, _R2deriv, _z2deriv, _Rzderiv, _U, _dUdu, _d2Udu2, _V, _dVdv, _d2Vdv2", "galpy/potential/potential_c_ext/OblateStaeckelWrapperPotential.c: OblateStaeckelWrapperPotentialEval, Rforce, zforce, R2deriv, z2deriv, Rzderiv, PlanarRforce, PlanarR2deriv", "galpy/util/coords.py: Rz_to_uv, uv_to_Rz"]}
{"id": "C96", "title": "Adiabatic contraction of a halo", "statement": "AdiabaticContractionWrapperPotential gives the halo with the contracted mass profile: for growing mass profiles the equations of each of the three methods have exactly one solution; with the method of Blumenthal et al. the product of radius and enclosed mass of every shell is conserved, shells do not cross, a shell moves inwards if the baryons within it are more than their share and nothing changes if the baryons follow the halo (the latter for Gnedin et al. too); with the method of Cautun et al. the contracted mass grows with the baryonic mass. The force at the radii of the grid is the contracted one, beyond the grid it is that of the mass within the last radius, and the amplitude multiplies it.", "quantifier": "every growing dark and baryonic mass profile, every grid range, baryon fraction below one, virial radius and amplitude", "why_tests_cant": "Tests compare one profile with a tabulated result; existence and uniqueness of the solutions that the iterations look for, the order of the shells and the direction of the contraction are statements about all mass profiles.", "anchors": ["galpy/potential/AdiabaticContractionWrapperPotential.py: AdiabaticContractionWrapperPotential.__init__, _contraction_Cautun2020, _contraction_Blumenthal1986, _contraction_Gnedin2004", "galpy/potential/interpSphericalPotential.py: interpSphericalPotential.__init__, _rforce, _revaluate"]}
{"id": "C97", "title": "Osipkov-Merritt distribution functions of power laws", "statement": "osipkovmerrittPowerLawdf is, for every power-law tracer and potential that the constructor accepts, a distribution function for them: it is not negative and vanishes where Q = -E - L^2/(2 ra^2) is not positive, its integral over all velocities is the density of the tracer at every radius, its anisotropy is 1/(1 + ra^2/r^2), and it tends to isotropicPowerLawdf for large ra.", "quantifier": "every amplitude, exponent of the potential and of the tracer that the constructor accepts, anisotropy radius, value of Q and radius", "why_tests_cant": "Tests integrate numerically for a few exponents, mostly tracers that generate the potential; for which exponents the function is negative or not integrable is a statement about the whole range that the constructor accepts.", "anchors": ["galpy/df/osipkovmerrittPowerLawdf.py: osipkovmerrittPowerLawdf.__init__, fQ, _vmax_at_r", "galpy/df/osipkovmerrittdf.py: _osipkovmerrittdf._call_internal, _vmomentdensity", "galpy/potential/PowerSphericalPotential.py: PowerSphericalPotential"]}
{"id": "C98", "title": "Particle sprays start at the tidal radius in the frame of the orbit", "statement": "sample(integrate=False) of fardal15spraydf and chen24spraydf releases every particle, relative to the progenitor's orbit about the centre, where the published rule puts it: the offsets are multiples of the tidal radius at the position of the progenitor, along the direction to the progenitor, that of its motion around the centre and that of its angular momentum; the velocity offsets are multiples of the circular velocity or of the velocity of escape from the progenitor. Leading and trailing particles are opposite in the mean, 'both' draws the given number in all, and the result does not depend on the units.", "quantifier": "every position and velocity of the progenitor with angular momentum, with or without a moving centre, every potential, mass, draw of the random numbers, stripping time and number of particles", "why_tests_cant": "Tests look at the mean of samples for a few progenitors, none of them in a retrograde orbit in the plane; that the rotation, the tidal radius and the units are right holds or fails for each orientation of the orbit and each potential.", "anchors": ["galpy/df/streamspraydf.py: basestreamspraydf.__init__, sample, _sample_tail, _setup_rot, _calc_rtide, _calc_vc", "galpy/df/streamspraydf.py: chen24spraydf.spray_df, fardal15spraydf.spray_df", "galpy/util/__init__.py: _rotate_to_arbitrary_vector", "galpy/potential/Potential.py: rtide"]}
{"id": "C99", "title": "Stripping times follow the given distribution", "statement": "With stripping_pdf, sample of the particle sprays draws every stripping time between -tdisrupt and the present, and the fraction of particles stripped before any time is that of the given function, integrated by the trapezoidal rule on the grid of times; no particle is stripped while the function is zero. Functions that are negative somewhere on the grid or zero everywhere raise an exception.", "quantifier": "every non-negative function of time, time since the start of the disruption, time of the grid and random number", "why_tests_cant": "Tests compare histograms of samples for two or three smooth functions; that the inverse of the cumulative distribution is right at every time, also for functions that vanish on intervals, is beyond sampling.", "anchors": ["galpy/df/streamspraydf.py: basestreamspraydf._parse_stripping_pdf, _sample_tail"]}
{"id": "C100", "title": "The Python DOP853 integrator samples a curve of accepted Runge-Kutta steps", "statement": "When integration with method dop853 ends, the first row is the initial condition and every other row is, at its time, a point of one curve that starts at the initial condition, consists of accepted explicit Runge-Kutta steps of the equation that each start where the previous one ends, pass the error test and are not longer than the largest step, and has the slope of the equation at both ends of every step. Shifting or reversing time together with the equation does not change the rows. With a largest step given, the rows do not depend on later times. The integration ends after at most nmax steps. With the coefficients of the file a step is of eighth order for smooth equations, and the rows inside steps are of seventh order on polynomials in time and on linear equations.", "quantifier": "every dimension, right-hand side, initial condition, tolerance, list of times in one direction and number of steps", "why_tests_cant": "Tests compare energies and a few orbits with other integrators; an output time that falls into the wrong step, a slope kept from a rejected step or a step in the wrong direction changes results below those tolerances, and which steps are rejected depends on every input.", "anchors": ["galpy/util/leung_dop853.py: dop853, dopri853core, dense_output, hinit, custom_sign"]}
