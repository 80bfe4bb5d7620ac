{
 "claims": [
  {
   "property": "C01",
   "status": "partial",
   "theorems": [
    "Verif.C01_Plummer",
    "Verif.C01_Isochrone",
    "Verif.C01_MiyamotoNagai",
    "Verif.C01_KuzminDisk",
    "Verif.C01_LogarithmicHalo_axi",
    "Verif.C01_LogarithmicHalo_nonaxi",
    "Verif.C01_PowerSpherical",
    "Verif.C01_FlattenedPower",
    "Verif.C01_Burkert",
    "Verif.C01_PseudoIsothermal",
    "Verif.C01_Dehnen",
    "Verif.C01_DehnenCore",
    "Verif.C01_Hernquist",
    "Verif.C01_Jaffe",
    "Verif.C01_NFW",
    "Verif.C01_SphericalShell",
    "Verif.C01_HomogeneousSphere",
    "Verif.C01_HomogeneousSphere_surface",
    "Verif.C01_AnyDisk",
    "Verif.C01_DiskExpansion",
    "Verif.C01_DiskSCF",
    "Verif.C01_Ellipsoidal",
    "Verif.C01_Ferrers",
    "Verif.C01_KuzminKutuzov",
    "Verif.C01_MN3ExponentialDisk",
    "Verif.C01_MovingObject",
    "Verif.C01_PowerSphCut",
    "Verif.C01_PowerSphCut_centre",
    "Verif.C01_Einasto",
    "Verif.C01_Einasto_centre",
    "Verif.C01_Null",
    "Verif.C01_AnySpherical",
    "Verif.C01_AnySpherical_centre",
    "Verif.C01_AnySpherical_infinity_partial",
    "Verif.C01_AnySpherical_infinity_fails",
    "Verif.C01_interpSpherical",
    "Verif.C01_Ring",
    "Verif.C01_SCF",
    "Verif.C01_SoftenedNeedle",
    "Verif.C01_SpiralArms",
    "Verif.C01_TwoPower",
    "Verif.C01_TwoPower_shift_partial",
    "Verif.C01_TwoPower_shift_fails",
    "Verif.C01_TwoPower_two_three_fails",
    "Verif.C01_DehnenBar",
    "Verif.C01_ExpTruncNFW_partial",
    "Verif.C01_ExpTruncNFW_fails"
   ],
   "note": "Proved for each modelled closed-form potential class (one theorem per class, every parameter and regular point); remaining galpy potential classes are not modelled yet. AnyAxisymmetricRazorThinDiskPotential: for every surface density of finite mass, off the plane z=0 (on it the code takes principal values, not covered). SCFPotential: every coefficient array, static or interpolated in time, every R>0. DiskSCFPotential (and every sum of pairs Sigma(r) h(z) with an expansion): axisymmetric targets and general ones, every R>0 off the centre. TwoPowerSphericalPotential with any exponents: inner slope below 3; value and forces for outer slope 3 (inner slope 2 excepted, where the value is 0/0: C01_TwoPower_two_three_fails) and for the closed forms; for the other outer slopes above 3 the value is the potential 1e-11 further out, with the resulting error bound (C01_TwoPower_shift_partial, C01_TwoPower_shift_fails); the value for outer slopes below 3 is not covered. TwoPowerTriaxialPotential: inner slope 2 or at most 2-1e-10, every outer slope above 2 (the value for inner slopes between 2 and 3 is not covered)."
  },
  {
   "property": "C02",
   "status": "partial",
   "theorems": [
    "Verif.C02_AnyDisk",
    "Verif.C02_DiskExpansion",
    "Verif.C02_DiskExpansion_nonaxi_partial",
    "Verif.C02_DiskSCF",
    "Verif.C02_Ellipsoidal",
    "Verif.C02_Ferrers_partial",
    "Verif.C02_Ferrers_zz_partial",
    "Verif.C02_Ferrers_fails",
    "Verif.C02_KuzminKutuzov",
    "Verif.C02_MN3ExponentialDisk",
    "Verif.C02_MovingObject",
    "Verif.C02_PowerSphCut",
    "Verif.C02_PowerSphCut_steep",
    "Verif.C02_Einasto",
    "Verif.C02_AnySpherical",
    "Verif.C02_interpSpherical",
    "Verif.C02_Ring",
    "Verif.C02_SCF_partial",
    "Verif.C02_SCF_fails",
    "Verif.C02_SCF_oldscipy",
    "Verif.C02_SoftenedNeedle",
    "Verif.C02_SpiralArms",
    "Verif.C02_TwoPower",
    "Verif.C02_TwoPower_forces",
    "Verif.C02_Plummer",
    "Verif.C02_Isochrone",
    "Verif.C02_MiyamotoNagai",
    "Verif.C02_KuzminDisk",
    "Verif.C02_LogarithmicHalo_axi",
    "Verif.C02_LogarithmicHalo_nonaxi",
    "Verif.C02_PowerSpherical",
    "Verif.C02_FlattenedPower",
    "Verif.C02_Burkert",
    "Verif.C02_PseudoIsothermal",
    "Verif.C02_Dehnen",
    "Verif.C02_DehnenCore",
    "Verif.C02_Hernquist",
    "Verif.C02_Jaffe",
    "Verif.C02_NFW",
    "Verif.C02_SphericalShell",
    "Verif.C02_HomogeneousSphere",
    "Verif.C02_SCF_C",
    "Verif.C02_DehnenBar",
    "Verif.C02_ExpTruncNFW_partial"
   ],
   "note": "As C01: one theorem per modelled class; remaining classes not modelled. AnyAxisymmetricRazorThinDiskPotential: off the plane for |z| >= 1e-9, below which the code substitutes the value at z=0. SCFPotential: off the axis where sin(theta)^2 >= 1e-14 or M<=1; nearer to the axis the code takes the direction of another point and phi2deriv is wrong by a factor above 1000 (C02_SCF_fails). The C functions of the same class do not do this and are the Hessian for every R>0 (C02_SCF_C). DiskSCFPotential: all second derivatives for axisymmetric targets; for general ones the mixed azimuthal derivatives do not exist in the code and are not covered (C02_DiskExpansion_nonaxi_partial). TwoPowerSphericalPotential: second derivatives against the forces for every inner slope below 3 and every outer slope."
  },
  {
   "property": "C03",
   "status": "partial",
   "theorems": [
    "Verif.C03_AnyDisk",
    "Verif.C03_AnyDisk_source",
    "Verif.C03_AnyDisk_sheet",
    "Verif.C03_AnyDisk_centre",
    "Verif.C03_DiskExpansion",
    "Verif.C03_DiskSCF",
    "Verif.C03_Ellipsoidal",
    "Verif.C03_Ferrers_partial",
    "Verif.C03_Ferrers_fails",
    "Verif.C03_KuzminKutuzov",
    "Verif.C03_MN3ExponentialDisk",
    "Verif.C03_MovingObject",
    "Verif.C03_PowerSphCut",
    "Verif.C03_PowerSphCut_steep",
    "Verif.C03_PowerSphCut_amp",
    "Verif.C03_Einasto",
    "Verif.C03_AnySpherical",
    "Verif.C03_interpSpherical",
    "Verif.C03_Ring",
    "Verif.C03_Ring_source",
    "Verif.C03_SCF",
    "Verif.C03_SoftenedNeedle",
    "Verif.C03_SpiralArms_partial",
    "Verif.C03_SpiralArms_fails",
    "Verif.C03_TwoPower",
    "Verif.C03_TwoPower_forces",
    "Verif.C03_Plummer",
    "Verif.C03_Isochrone",
    "Verif.C03_MiyamotoNagai",
    "Verif.C03_KuzminDisk",
    "Verif.C03_LogarithmicHalo_axi",
    "Verif.C03_LogarithmicHalo_nonaxi",
    "Verif.C03_PowerSpherical",
    "Verif.C03_FlattenedPower",
    "Verif.C03_Burkert",
    "Verif.C03_PseudoIsothermal",
    "Verif.C03_Dehnen",
    "Verif.C03_DehnenCore",
    "Verif.C03_Hernquist",
    "Verif.C03_Jaffe",
    "Verif.C03_NFW",
    "Verif.C03_SphericalShell",
    "Verif.C03_HomogeneousSphere",
    "Verif.C03_corotating_partial",
    "Verif.C03_corotating_fails",
    "Verif.C03_DehnenBar",
    "Verif.C03_ExpTruncNFW_partial"
   ],
   "note": "As C01: one theorem per modelled class; remaining classes not modelled. The density of SpiralArmsPotential violates Poisson equation (C03_SpiralArms_fails; missing square in one term, exact difference in C03_SpiralArms_partial). AnyAxisymmetricRazorThinDiskPotential: also Newton's potential of the disk, the jump 4 pi Sigma of the vertical force across the plane, and the centre. SCFPotential: every coefficient array, every R>0 (Gegenbauer and associated Legendre equations proved). DiskSCFPotential: Poisson equation for every list of pairs and expansion. TwoPowerSphericalPotential: every inner slope below 3 and every outer slope."
  },
  {
   "property": "C04",
   "status": "proved",
   "theorems": [
    "Verif.C04_PowerSphCut",
    "Verif.C04_PowerSphCut_int_fails",
    "Verif.C04_Einasto",
    "Verif.C04_AnySpherical",
    "Verif.C04_interpSpherical",
    "Verif.C04_TwoPower",
    "Verif.C04_Plummer",
    "Verif.C04_Dehnen",
    "Verif.C04_DehnenCore",
    "Verif.C04_Hernquist",
    "Verif.C04_Jaffe",
    "Verif.C04_NFW",
    "Verif.C04_Kepler",
    "Verif.C04_KuzminDisk",
    "Verif.C04_ExpTruncNFW_partial"
   ],
   "note": "Every closed-form _mass among the modelled classes: Plummer, Dehnen family, NFW, Kepler, KuzminDisk, PowerSphericalPotentialwCutoff, TwoPowerSphericalPotential with any exponents; Gauss' theorem, derivative, integral and total. An integer radius given to PowerSphericalPotentialwCutoff.mass returns a truncated integer: C04_PowerSphCut_int_fails."
  },
  {
   "property": "C05",
   "status": "proved",
   "theorems": [
    "Verif.C05_default",
    "Verif.C05_rdens"
   ],
   "note": "For every radial profile, default and overridden density."
  },
  {
   "property": "C06",
   "status": "proved",
   "theorems": [
    "Verif.C06_sum",
    "Verif.C06_total",
    "Verif.C06_expression",
    "Verif.C06_consistent"
   ],
   "note": "Every heap reachable by any session of constructor calls, +, *, /, slicing, item assignment; PotExpr theorem covers any nesting."
  },
  {
   "property": "C07",
   "status": "proved",
   "theorems": [
    "Verif.C07_mul",
    "Verif.C07_div",
    "Verif.C07_single_succeeds",
    "Verif.C07_combination_succeeds",
    "Verif.C07_combination_needs",
    "Verif.C07_distributes",
    "Verif.C07_after_assignment_fails"
   ],
   "note": "All combination trees; C07_combination_succeeds/needs characterise when k*c returns. C07_after_assignment_fails records that after an incompatible item-0 assignment k*c raises."
  },
  {
   "property": "C08",
   "status": "proved",
   "theorems": [
    "Verif.C08_construct",
    "Verif.C08_add_flat",
    "Verif.C08_flatten_idempotent",
    "Verif.C08_rebuild",
    "Verif.C08_add_members",
    "Verif.C08_assoc",
    "Verif.C08_length",
    "Verif.C08_session"
   ],
   "note": "Against an inductive leaf-order specification, for every nested argument and every session."
  },
  {
   "property": "C09",
   "status": "partial",
   "theorems": [
    "Verif.C09_flags_partial",
    "Verif.C09_linear_raises",
    "Verif.C09_linear_fails",
    "Verif.C09_nested_fails"
   ],
   "note": "Invariant over all sessions that avoid the two defects proved in C09_linear_fails/C09_nested_fails (item assignment on a 1D combination; assigning a combination to an integer item)."
  },
  {
   "property": "C10",
   "status": "proved",
   "theorems": [
    "Verif.C10_raises",
    "Verif.C10_returns",
    "Verif.C10_iff"
   ],
   "note": "For the evaluate* functions on every reachable heap: raises PotentialError iff the needed argument is missing."
  },
  {
   "property": "C11",
   "status": "proved",
   "theorems": [
    "Verif.C11_vcirc",
    "Verif.C11_omegac",
    "Verif.C11_circular_balance",
    "Verif.C11_circular_orbit",
    "Verif.C11_dvcircdR",
    "Verif.C11_epifreq",
    "Verif.C11_epifreq_effective",
    "Verif.C11_verticalfreq",
    "Verif.C11_vterm",
    "Verif.C11_flattening"
   ],
   "note": "Against circular motion: the circular state solves the equations of motion; frequencies are square roots of second derivatives of the effective potential; terminal velocity, flattening and slope identities."
  },
  {
   "property": "C12",
   "status": "proved",
   "theorems": [
    "Verif.C12_deviation_matrix",
    "Verif.C12_hessian",
    "Verif.C12_symmetric",
    "Verif.C12_trace",
    "Verif.C12_nonaxi_raises"
   ],
   "note": "Minus the Cartesian Hessian of the potential as a function of rectangular coordinates, for every axisymmetric smooth potential; symmetric, trace is minus the Laplacian; non-axisymmetric input raises."
  },
  {
   "property": "C13",
   "status": "proved",
   "theorems": [
    "Verif.C13_rforce",
    "Verif.C13_r2deriv",
    "Verif.C13_rtide",
    "Verif.C13_rtide_raises"
   ],
   "note": "First and second derivative along the ray through the origin, for every smooth potential; tidal radius characterised."
  },
  {
   "property": "C14",
   "status": "proved",
   "theorems": [
    "Verif.C14_search_up",
    "Verif.C14_search_down",
    "Verif.C14_rl",
    "Verif.C14_rl_ends",
    "Verif.C14_rE",
    "Verif.C14_rE_ends",
    "Verif.C14_rE_unbound_fails",
    "Verif.C14_rhalf",
    "Verif.C14_rhalf_ends",
    "Verif.C14_rap_rperi_ends",
    "Verif.C14_rap",
    "Verif.C14_rperi",
    "Verif.C14_radial_equation_continuous",
    "Verif.C14_unbound_fails",
    "Verif.C14_umax",
    "Verif.C14_umin",
    "Verif.C14_vmin",
    "Verif.C14_xmax",
    "Verif.C14_xmax_sentinel_fails",
    "Verif.C14_zvc_ends",
    "Verif.C14_zvc",
    "Verif.C14_zvc_limit_fails",
    "Verif.C14_zvc_range_ends",
    "Verif.C14_zvc_range",
    "Verif.C14_zvc_range_far_fails"
   ],
   "note": "All search loops return intervals that contain a solution (intermediate value theorem) and end whenever a solution exists on the searched side. Disagreements proved: rE never ends for unbound energies, zvc/zvc_range/apocentre/maximum-height searches refuse or return a sentinel for bound orbits beyond a fixed limit. brentq itself is trusted to need a sign change only."
  },
  {
   "property": "C15",
   "status": "proved",
   "theorems": [
    "Verif.C15_before",
    "Verif.C15_after",
    "Verif.C15_decay",
    "Verif.C15_range",
    "Verif.C15_monotone",
    "Verif.C15_strict",
    "Verif.C15_smooth",
    "Verif.C15_array",
    "Verif.C15_default_times",
    "Verif.C15_default_fails",
    "Verif.C15_documented"
   ],
   "note": "All parameters with tform < tsteady; C15_default_fails shows that with the default tsteady and a non-negative tform the amplitude jumps."
  },
  {
   "property": "C16",
   "status": "proved",
   "theorems": [
    "Verif.C16_consistent",
    "Verif.C16_pointwise",
    "Verif.C16_same_factor",
    "Verif.C16_energy_rate",
    "Verif.C16_gaussian"
   ],
   "note": "Every time factor (Dehnen, Gaussian, arbitrary); also the rate of change of energy."
  },
  {
   "property": "C17",
   "status": "proved",
   "theorems": [
    "Verif.C17_pattern",
    "Verif.C17_solidBody",
    "Verif.C17_corotating",
    "Verif.C17_corotating_rigid",
    "Verif.C17_rotates",
    "Verif.C17_rotates_sum",
    "Verif.C17_rotates_axisymmetric",
    "Verif.C17_jacobi",
    "Verif.C17_jacobi_planar"
   ],
   "note": "Solid-body wrapper fully consistent; corotating wrapper forces and second derivatives consistent; Jacobi integral along every solution. The density of the corotating wrapper is not the Poisson density (C03_corotating_fails)."
  },
  {
   "property": "C18",
   "status": "proved",
   "theorems": [
    "Verif.C18_cylindrical",
    "Verif.C18_meridional",
    "Verif.C18_planar",
    "Verif.C18_planarR",
    "Verif.C18_linear",
    "Verif.C18_rectangular",
    "Verif.C18_planar_rectangular"
   ],
   "note": "Every right-hand side (cylindrical, meridional, planar with and without azimuth, linear, rectangular, planar rectangular), every static potential whose forces are its gradient along the solution, every solution on every interval. Exact real arithmetic; the numerical integrators themselves are not part of this statement."
  },
  {
   "property": "C19",
   "status": "proved",
   "theorems": [
    "Verif.C19_Lz_cylindrical",
    "Verif.C19_Lz_planar",
    "Verif.C19_Lz_rectangular",
    "Verif.C19_L_rectangular"
   ],
   "note": "Lz for the cylindrical, planar and rectangular equations in every axisymmetric potential, the whole vector in every spherical one."
  },
  {
   "property": "C20",
   "status": "proved",
   "theorems": [
    "Verif.C20_gradient",
    "Verif.C20_planar",
    "Verif.C20_to_rectangular",
    "Verif.C20_to_cylindrical"
   ],
   "note": "Rectangular force is minus the Cartesian gradient; every cylindrical solution is a rectangular one and conversely, also with velocity-dependent forces."
  },
  {
   "property": "C21",
   "status": "proved",
   "theorems": [
    "Verif.C21_jacobian",
    "Verif.C21_along_curve",
    "Verif.C21_symmetric",
    "Verif.C21_planar_force",
    "Verif.C21_planar_block",
    "Verif.C21_planar_jacobian",
    "Verif.C21_planar_symmetric",
    "Verif.C21_symplectic",
    "Verif.C21_planar_symplectic",
    "Verif.C21_volume",
    "Verif.C21_planar_volume",
    "Verif.C21_linear"
   ],
   "note": "Matrix entries are the partial derivatives of the rectangular force (full, planar, linear), the matrix is symmetric, the symplectic product of two deviations and the determinant of a full set of deviations are constant."
  },
  {
   "property": "C22",
   "status": "proved",
   "theorems": [
    "Verif.C22_steps_leapfrog",
    "Verif.C22_steps_symplec",
    "Verif.C22_reversible_python",
    "Verif.C22_reversible_run",
    "Verif.C22_form_run",
    "Verif.C22_angular_momentum_python",
    "Verif.C22_angular_momentum",
    "Verif.C22_Lz",
    "Verif.C22_symplectic",
    "Verif.C22_volume",
    "Verif.C22_deviation"
   ],
   "note": "Python leapfrog and C leapfrog/symplec4/symplec6, branch by branch including merged half drifts and stale buffers. Exact reversibility per interval and for whole runs, symplectic derivative, phase-space volume, exact angular momentum for central forces and exact Lz for torque-free forces, deviations equal the derivative of the discrete flow. Exact real arithmetic."
  },
  {
   "property": "C23",
   "status": "partial",
   "theorems": [
    "Verif.C23_python",
    "Verif.C23_python_rows",
    "Verif.C23_c",
    "Verif.C23_c_given_step",
    "Verif.C23_interrupt",
    "Verif.C23_uneven_fails",
    "Verif.C23_negative_dt_fails",
    "Verif.C23_truncation_fails"
   ],
   "note": "Proved for evenly spaced times for Python and C, for any tolerance, with the interrupt behaviour. The statement for every time array is false (C23_uneven_fails); the caller's check lets through steps of the wrong sign and steps that are lost by truncation (C23_negative_dt_fails, C23_truncation_fails)."
  },
  {
   "property": "C24",
   "status": "proved",
   "theorems": [
    "Verif.C24_rk4_order",
    "Verif.C24_rk6_order",
    "Verif.C24_dopr54_order",
    "Verif.C24_symplectic_order",
    "Verif.C24_python_order",
    "Verif.C24_coefficients",
    "Verif.C24_exact_sum_fails",
    "Verif.C24_rk_grid",
    "Verif.C24_rk_given_step",
    "Verif.C24_rk_interrupt",
    "Verif.C24_dopr54_run",
    "Verif.C24_dopr54_interrupt",
    "Verif.C24_tolerance_fails",
    "Verif.C24_wrong_sign_fails"
   ],
   "note": "Local error of one step of the code by B-series (order conditions for all trees checked by kernel evaluation, the theory proved in Lemmas/BSeries and Lemmas/SplitOrder) for every analytic right-hand side. Drivers: rows, times, steps, termination of the adaptive loop by a lexicographic measure, interrupts. Disagreements: C24_exact_sum_fails (decimals do not sum to one exactly), C24_tolerance_fails (dopr54 accepts errors up to 2.5 tolerances), C24_wrong_sign_fails (dopr54 never ends with a step of the wrong sign, which integrate accepts). Exact arithmetic: no rounding error accumulation, no NaN."
  },
  {
   "property": "C25",
   "status": "proved",
   "theorems": [
    "Verif.C25_direction",
    "Verif.C25_ranges",
    "Verif.C25_round_trip",
    "Verif.C25_round_trip_galactic",
    "Verif.C25_proper_motion",
    "Verif.C25_proper_motion_galactic",
    "Verif.C25_proper_motion_norm",
    "Verif.C25_proper_motion_round_trip",
    "Verif.C25_proper_motion_round_trip_galactic",
    "Verif.C25_custom_direction",
    "Verif.C25_custom_round_trip",
    "Verif.C25_custom_proper_motion",
    "Verif.C25_custom_proper_motion_inverse",
    "Verif.C25_custom_reflection_fails"
   ],
   "note": "Over the reals for every direction, epoch with any node/pole angles, and custom rotation; round trips hold wherever the latitude of the result is not a pole. C25_custom_reflection_fails: an improper orthogonal custom matrix gives the proper motion with the wrong sign."
  },
  {
   "property": "C26",
   "status": "proved",
   "theorems": [
    "Verif.C26_position",
    "Verif.C26_round_trip_rectangular",
    "Verif.C26_round_trip_sky",
    "Verif.C26_velocity",
    "Verif.C26_velocity_converse",
    "Verif.C26_velocity_round_trip",
    "Verif.C26_velocity_round_trip_rectangular",
    "Verif.C26_phase_space",
    "Verif.C26_xyz_keyword"
   ],
   "note": "Over the reals: positions for every input, inverses off the polar axis, velocities as the rate of change along every differentiable trajectory."
  },
  {
   "property": "C27",
   "status": "proved",
   "theorems": [
    "Verif.C27_position_inverse",
    "Verif.C27_position_isometry",
    "Verif.C27_sun",
    "Verif.C27_in_plane",
    "Verif.C27_velocity_inverse",
    "Verif.C27_velocity_is_rate",
    "Verif.C27_cylindrical",
    "Verif.C27_cylindrical_velocity",
    "Verif.C27_sun_on_axis_fails"
   ],
   "note": "For every Sun position with Xsun different from 0 and every orthogonal additional rotation. C27_sun_on_axis_fails: Xsun = 0 loses the vertical coordinate. The additional rotation galpy builds is orthogonal only up to the rounding of its zeroed entries; that step is numerical and not modelled."
  },
  {
   "property": "C28",
   "status": "proved",
   "theorems": [
    "Verif.C28_rect_cyl_rect",
    "Verif.C28_cyl_rect_cyl",
    "Verif.C28_cyl_spher_cyl",
    "Verif.C28_spher_cyl_spher",
    "Verif.C28_rect_to_cyl_velocity",
    "Verif.C28_cyl_to_rect_velocity",
    "Verif.C28_rect_cyl_velocity_inverse",
    "Verif.C28_cyl_to_spher_velocity",
    "Verif.C28_spher_to_cyl_velocity",
    "Verif.C28_cyl_spher_velocity_inverse",
    "Verif.C28_spher_cyl_velocity_inverse",
    "Verif.C28_galcenrect"
   ],
   "note": "Over the reals, inverses away from the polar axis, velocities as rates of change."
  },
  {
   "property": "C29",
   "status": "proved",
   "theorems": [
    "Verif.C29_cyl_to_rect",
    "Verif.C29_cyl_to_rect_position",
    "Verif.C29_galcenrect_to_XYZ",
    "Verif.C29_lbd_to_XYZ",
    "Verif.C29_XYZ_to_lbd",
    "Verif.C29_galcenrect_to_galcencyl",
    "Verif.C29_galsky_to_sky",
    "Verif.C29_sky_to_customsky",
    "Verif.C29_extra_rot_fails",
    "Verif.C29_epoch_fails"
   ],
   "note": "Jacobians of cyl_to_rect, galcenrect_to_XYZ, lbd_to_XYZ, XYZ_to_lbd, galcenrect_to_galcencyl, galsky_to_sky and sky_to_customsky along every curve, with the degree flag. C29_extra_rot_fails and C29_epoch_fails: two Jacobians ignore an option of the map they belong to."
  },
  {
   "property": "C30",
   "status": "proved",
   "theorems": [
    "Verif.C30_prolate_round_trip",
    "Verif.C30_prolate_round_trip_uv",
    "Verif.C30_oblate_round_trip",
    "Verif.C30_oblate_round_trip_uv",
    "Verif.C30_oblate_sign_fails",
    "Verif.C30_momenta",
    "Verif.C30_momenta_round_trip",
    "Verif.C30_momenta_round_trip_uv",
    "Verif.C30_momenta_Rz",
    "Verif.C30_lambdanu_ranges",
    "Verif.C30_lambdanu_round_trip",
    "Verif.C30_lambdanu_round_trip_inverse",
    "Verif.C30_lambdanu_sign_fails",
    "Verif.C30_lambdanu_jacobian",
    "Verif.C30_lambdanu_hessian"
   ],
   "note": "Both coordinate systems, both directions, momenta, Jacobian and Hessian of lambda and nu. C30_oblate_sign_fails and C30_lambdanu_sign_fails: the oblate system and (lambda, nu) lose the sign of z."
  },
  {
   "property": "C31",
   "status": "proved",
   "theorems": [
    "Verif.C31_dimensions",
    "Verif.C31_output",
    "Verif.C31_kmskpc",
    "Verif.C31_newton",
    "Verif.C31_algebra",
    "Verif.C31_parsers",
    "Verif.C31_parsers_alternative",
    "Verif.C31_numbers",
    "Verif.C31_round_trip",
    "Verif.C31_refused",
    "Verif.C31_year_fails"
   ],
   "note": "All fifteen factor functions, all output quantities and all parsers, for every positive constants and scales. C31_year_fails records that the fallback constants mix the Julian and the tropical year in force_in_10m13kms2."
  },
  {
   "property": "C32",
   "status": "partial",
   "theorems": [
    "Verif.C32_decision_partial",
    "Verif.C32_fixed",
    "Verif.C32_none",
    "Verif.C32_mass_energy_fails",
    "Verif.C32_needless_fails",
    "Verif.C32_log_warning_fails"
   ],
   "note": "Decision, factor and precedence for all quantities whose tables of necessary scales agree with their dimension, quantities in fixed units, and None. For angles, number densities and mass per energy the tables are wrong: C32_needless_fails, C32_mass_energy_fails. C32_log_warning_fails: misleading warning. Array-valued scales are not modelled."
  },
  {
   "property": "C33",
   "status": "partial",
   "theorems": [
    "Verif.C33_off_partial",
    "Verif.C33_on_partial",
    "Verif.C33_history_fails"
   ],
   "note": "Holds right after each call (off/on theorems for every reachable heap); false across item assignment, proved in C33_history_fails."
  },
  {
   "property": "C34",
   "status": "partial",
   "theorems": [
    "Verif.C34_compatible_iff",
    "Verif.C34_reflexive",
    "Verif.C34_unset",
    "Verif.C34_symmetric_fails",
    "Verif.C34_transitive_fails",
    "Verif.C34_symmetric_partial",
    "Verif.C34_construct",
    "Verif.C34_construct_never",
    "Verif.C34_add",
    "Verif.C34_add_combination"
   ],
   "note": "Rejection is characterised exactly; reflexivity holds; symmetry and transitivity are false (C34_symmetric_fails, C34_transitive_fails), symmetry holds outside a narrow band (C34_symmetric_partial)."
  },
  {
   "property": "C35",
   "status": "proved",
   "theorems": [
    "Verif.C35_succeeds",
    "Verif.C35_basic",
    "Verif.C35_fancy",
    "Verif.C35_mask",
    "Verif.C35_integrate",
    "Verif.C35_scales_fails"
   ],
   "note": "Item access (integer, slice, fancy and mask keys) on any orbit array selects exactly the chosen rows of initial conditions, times, trajectories and names, and commutes with integration. C35_scales_fails proves that per-object ro/vo scales are not sliced."
  },
  {
   "property": "C36",
   "status": "partial",
   "theorems": [
    "Verif.C36_step",
    "Verif.C36_history_partial",
    "Verif.C36_continues",
    "Verif.C36_single_call",
    "Verif.C36_isclose_fails",
    "Verif.C36_flip_fails"
   ],
   "note": "Continuation gives one monotone trajectory of a flow for exact-start calls. Missing: starts that only pass isclose (C36_isclose_fails) and flipped objects (C36_flip_fails) where the property is false of the code."
  },
  {
   "property": "C37",
   "status": "partial",
   "theorems": [
    "Verif.C37_partial",
    "Verif.C37_sliced_fails",
    "Verif.C37_dxdv_fails",
    "Verif.C37_interrupted_fails"
   ],
   "note": "From every state that is not sliced, deviation-integrated or interrupted, a call with accepted times and a total integrator returns. C37_sliced_fails, C37_dxdv_fails and C37_interrupted_fails prove the property is false of the code in those states."
  },
  {
   "property": "C38",
   "status": "partial",
   "theorems": [
    "Verif.C38_partial",
    "Verif.C38_continued_fails",
    "Verif.C38_mismatch_fails"
   ],
   "note": "What a failing integrate call may change is characterised; C38_continued_fails (initial condition lost) and C38_mismatch_fails (times and trajectory disagree) prove the full property is false of the code."
  },
  {
   "property": "C39",
   "status": "partial",
   "theorems": [
    "Verif.C39_accepts",
    "Verif.C39_integrate_partial",
    "Verif.C39_sos",
    "Verif.C39_dxdv",
    "Verif.C39_ias15_fails",
    "Verif.C39_spelling_fails"
   ],
   "note": "Method choice proved for every method string; C39_ias15_fails and C39_spelling_fails show where the property is false of the code."
  },
  {
   "property": "C40",
   "status": "partial",
   "theorems": [
    "Verif.C40_nonneg_partial",
    "Verif.C40_planar_position_partial",
    "Verif.C40_planar_velocity_fails",
    "Verif.C40_full_position_fails",
    "Verif.C40_no_azimuth_partial",
    "Verif.C40_no_azimuth_fails"
   ],
   "note": "Correct for non-negative radii; for every negative radius the returned state is proved wrong (planar: velocity reversed; full: height shifted by pi, position wrong; without azimuth: radial velocity and angular momentum sign wrong)."
  },
  {
   "property": "C41",
   "status": "partial",
   "theorems": [
    "Verif.C41_map",
    "Verif.C41_error",
    "Verif.C41_died",
    "Verif.C41_sound",
    "Verif.C41_balanced",
    "Verif.C41_terminates",
    "Verif.C41_progress",
    "Verif.C41_outcome",
    "Verif.C41_empty_fails",
    "Verif.C41_single_fails",
    "Verif.C41_mixed_fails",
    "Verif.C41_error_order_fails"
   ],
   "note": "C41_map, C41_error, C41_died and C41_sound hold for every schedule of the worker processes; C41_terminates and C41_progress bound the number of steps. Disagreements: an empty sequence raises ValueError (C41_empty_fails), a single element gives a lazy iterator (C41_single_fails), mixed types are converted (C41_mixed_fails), the exception raised depends on the schedule (C41_error_order_fails)."
  },
  {
   "property": "C42",
   "status": "partial",
   "theorems": [
    "Verif.C42_atomic_partial",
    "Verif.C42_returned",
    "Verif.C42_not_lost",
    "Verif.C42_delayed",
    "Verif.C42_failure",
    "Verif.C42_progress",
    "Verif.C42_terminates",
    "Verif.C42_other_file_system_fails",
    "Verif.C42_unbound_fails"
   ],
   "note": "C42_atomic_partial: every reachable state when the temporary directory is on the file system of the target. C42_other_file_system_fails: otherwise shutil.move copies and a crash leaves a truncated target. C42_unbound_fails: an interrupt before the file is opened ends with UnboundLocalError."
  },
  {
   "property": "C43",
   "status": "partial",
   "theorems": [
    "Verif.C43_complete",
    "Verif.C43_values_partial",
    "Verif.C43_twice",
    "Verif.C43_idempotent",
    "Verif.C43_untouched",
    "Verif.C43_percent_fails",
    "Verif.C43_dropped_fails",
    "Verif.C43_default_section_fails"
   ],
   "note": "C43_complete for all file contents; values are kept (C43_values_partial) when no value has a percent sign. C43_percent_fails: an escaped percent sign makes the repair raise; C43_dropped_fails, C43_default_section_fails: unknown keys and values of [DEFAULT] are lost."
  },
  {
   "property": "C44",
   "status": "proved",
   "theorems": [
    "Verif.C44_table",
    "Verif.C44_linear",
    "Verif.C44_exact",
    "Verif.C44_error",
    "Verif.C44_empty",
    "Verif.C44_tolerance_fails"
   ],
   "note": "Levels, stopping rule and warning (C44_table), linearity, exactness of column k up to degree 2k+1, error bound; C44_tolerance_fails shows that an accuracy below the tolerance is not implied by a normal return."
  },
  {
   "property": "C45",
   "status": "partial",
   "theorems": [
    "Verif.C45_axis0",
    "Verif.C45_axis1",
    "Verif.C45_axisNone",
    "Verif.C45_stable",
    "Verif.C45_flat_fails"
   ],
   "note": "Proved for two-dimensional arrays along either axis and for axis=None. C45_flat_fails: a one-dimensional array with the default axis=0 returns arr_j + log n elementwise instead of the log of the sum."
  },
  {
   "property": "C46",
   "status": "partial",
   "theorems": [
    "Verif.C46_rotation",
    "Verif.C46_parallel",
    "Verif.C46_antiparallel_fails"
   ],
   "note": "Orthogonality, determinant, direction and inverse for every vector not antiparallel to the target, and the parallel case. C46_antiparallel_fails: for the antiparallel vector the code returns -I, whose determinant is -1."
  },
  {
   "property": "C47",
   "status": "proved",
   "theorems": [
    "Verif.C47_reverses",
    "Verif.C47_entries",
    "Verif.C47_variants_agree",
    "Verif.C47_energy",
    "Verif.C47_angular_momentum",
    "Verif.C47_involution",
    "Verif.C47_inplace",
    "Verif.C47_new_object"
   ],
   "note": "All five phase-space dimensions, both variants of flip, whole objects."
  },
  {
   "property": "C48",
   "status": "proved",
   "theorems": [
    "Verif.C48_accessors",
    "Verif.C48_energy",
    "Verif.C48_energy_no_azimuth",
    "Verif.C48_angular_momentum",
    "Verif.C48_L_defined",
    "Verif.C48_split",
    "Verif.C48_split_plane",
    "Verif.C48_jacobi",
    "Verif.C48_jacobi_vector",
    "Verif.C48_jacobi_agree",
    "Verif.C48_pattern_speed"
   ],
   "note": "E, ER, Ez, L, Lz, Jacobi against rectangular position, velocity, cross product and rotating-frame energy."
  },
  {
   "property": "C49",
   "status": "proved",
   "theorems": [
    "Verif.C49_energy",
    "Verif.C49_inverse",
    "Verif.C49_forward",
    "Verif.C49_motion",
    "Verif.C49_canonical"
   ],
   "note": "Harmonic oscillator action-angle and inverse: energy, inverse and forward round trips, linear motion, canonical transformation."
  },
  {
   "property": "C50",
   "status": "proved",
   "theorems": [
    "Verif.C50_hamiltonian",
    "Verif.C50_nonneg",
    "Verif.C50_frequencies",
    "Verif.C50_point_frequencies",
    "Verif.C50_polar_fails",
    "Verif.C50_kepler",
    "Verif.C50_inverse_forward",
    "Verif.C50_forward_inverse",
    "Verif.C50_angles",
    "Verif.C50_planar_retrograde_fails",
    "Verif.C50_inverse_planar_fails",
    "Verif.C50_peri_apo",
    "Verif.C50_bounds"
   ],
   "note": "Hamiltonian, nonnegativity, frequencies as derivatives, pericentre/apocentre, linear advance of all angles along every solution of Newton's equations, unique solution of Kepler's equation, and both round trips. Disagreements proved separately: Omegaphi of forward and inverse classes at Lphi = 0 (C50_polar_fails), sign of the azimuthal angle for planar orbits with negative angular momentum (C50_planar_retrograde_fails), azimuthal angle ignored by the inverse for planar orbits (C50_inverse_planar_fails). The numerical root finders are not modelled."
  },
  {
   "property": "C51",
   "status": "partial",
   "theorems": [
    "Verif.C51_DiskSCF",
    "Verif.C51_Ellipsoidal",
    "Verif.C51_Ellipsoidal_fails",
    "Verif.C51_KuzminKutuzov",
    "Verif.C51_KuzminKutuzov_planar",
    "Verif.C51_MN3ExponentialDisk",
    "Verif.C51_MovingObject",
    "Verif.C51_MovingObject_inside",
    "Verif.C51_MovingObject_planar_partial",
    "Verif.C51_MovingObject_planar_fails",
    "Verif.C51_PowerSphCut",
    "Verif.C51_PowerSphCut_planar",
    "Verif.C51_Einasto",
    "Verif.C51_Einasto_planar",
    "Verif.C51_interpSpherical_partial",
    "Verif.C51_interpSpherical_fails",
    "Verif.C51_SoftenedNeedle",
    "Verif.C51_SpiralArms",
    "Verif.C51_SpiralArms_planar",
    "Verif.C51_TwoPower",
    "Verif.C51_TwoPower_planar",
    "Verif.C51_modulate",
    "Verif.C51_solidBody",
    "Verif.C51_corotating",
    "Verif.C51_Plummer",
    "Verif.C51_Plummer_planar",
    "Verif.C51_Isochrone",
    "Verif.C51_Isochrone_planar",
    "Verif.C51_MiyamotoNagai",
    "Verif.C51_MiyamotoNagai_planar",
    "Verif.C51_KuzminDisk",
    "Verif.C51_KuzminDisk_planar",
    "Verif.C51_PowerSpherical",
    "Verif.C51_PowerSpherical_planar",
    "Verif.C51_FlattenedPower",
    "Verif.C51_FlattenedPower_planar",
    "Verif.C51_Burkert",
    "Verif.C51_Burkert_planar",
    "Verif.C51_PseudoIsothermal",
    "Verif.C51_PseudoIsothermal_planar",
    "Verif.C51_DehnenCore",
    "Verif.C51_DehnenCore_planar",
    "Verif.C51_Hernquist",
    "Verif.C51_Hernquist_planar",
    "Verif.C51_Jaffe",
    "Verif.C51_Jaffe_planar",
    "Verif.C51_NFW",
    "Verif.C51_NFW_planar",
    "Verif.C51_HomogeneousSphere",
    "Verif.C51_HomogeneousSphere_planar",
    "Verif.C51_Dehnen",
    "Verif.C51_Dehnen_planar",
    "Verif.C51_Dehnen_Eval_partial",
    "Verif.C51_Dehnen_Eval_fails",
    "Verif.C51_KuzminDisk_planarR2deriv_fails",
    "Verif.C51_KuzminDisk_planarR2deriv_partial",
    "Verif.C51_LogarithmicHalo",
    "Verif.C51_LogarithmicHalo_planar",
    "Verif.C51_SCF_built",
    "Verif.C51_SCF",
    "Verif.C51_SCF_interval",
    "Verif.C51_SCF_layout",
    "Verif.C51_DehnenBar_force",
    "Verif.C51_DehnenBar_hess",
    "Verif.C51_DehnenBar_planar",
    "Verif.C51_Chandrasekhar_partial",
    "Verif.C51_Chandrasekhar_fails",
    "Verif.C51_FDM_partial",
    "Verif.C51_ExpTruncNFW",
    "Verif.C51_ExpTruncNFW_planar"
   ],
   "note": "C = Python for each modelled potential; disagreements proved: KuzminDisk planar second derivative sign, Dehnen alpha=2 evaluation, second derivatives of ellipsoidal potentials at the centre, dynamical friction beyond maxr, planar functions of a moving object that is not in the plane. SCFPotential: C = Python after the argument parser, including flattened and time-spline coefficients, the time-interval search and the index into the Legendre arrays of both GSL versions; the second derivatives where Python does not take another direction. DiskSCFPotential: the argument blocks are read back pair by pair and the C sums equal Python, including the overflow-safe forms of sech2. TwoPowerSphericalPotential: all C functions for every outer slope and inner slopes below 3 (the value where Python does not switch to a closed-form class). TwoPowerTriaxialPotential: inner slope 2 or at most 2-1e-10; between these C switches to the formula for slope 2."
  },
  {
   "property": "C52",
   "status": "proved",
   "theorems": [
    "Verif.C52_planar_derivatives",
    "Verif.C52_planar_derivatives_axi",
    "Verif.C52_toPlanar",
    "Verif.C52_toPlanar_other",
    "Verif.C52_RZToplanar",
    "Verif.C52_planar_orbits",
    "Verif.C52_even_zforce",
    "Verif.C52_vertical",
    "Verif.C52_toVertical",
    "Verif.C52_vertical_other"
   ],
   "note": "Point-level model of all four reductions with errors; arbitrary member lists. Object-level (heap) statement for combinations is in C06-C09."
  },
  {
   "property": "C53",
   "status": "proved",
   "theorems": [
    "Verif.C53_KG",
    "Verif.C53_KG_C",
    "Verif.C53_KG_halo_density",
    "Verif.C53_KG_density_fails",
    "Verif.C53_KG_units_fails",
    "Verif.C53_IsothermalDisk",
    "Verif.C53_IsothermalDisk_C",
    "Verif.C53_IsothermalDisk_Poisson"
   ],
   "note": "KG and isothermal disk, Python and C. Two documentation disagreements proved: F given as a density has twice the documented density, F given as a second derivative with units needs explicit ro/vo."
  },
  {
   "property": "C54",
   "status": "partial",
   "theorems": [
    "Verif.C54_HenonHeiles",
    "Verif.C54_HenonHeiles_value",
    "Verif.C54_HenonHeiles_C",
    "Verif.C54_EllipticalDisk",
    "Verif.C54_EllipticalDisk_value",
    "Verif.C54_EllipticalDisk_cpsp",
    "Verif.C54_EllipticalDisk_growth",
    "Verif.C54_EllipticalDisk_C",
    "Verif.C54_LogSpiral",
    "Verif.C54_LogSpiral_pitch",
    "Verif.C54_SteadyLogSpiral_growth",
    "Verif.C54_SteadyLogSpiral_retrograde_fails",
    "Verif.C54_LogSpiral_C",
    "Verif.C54_Cosmphi",
    "Verif.C54_Cosmphi_hess_partial",
    "Verif.C54_Cosmphi_inside",
    "Verif.C54_Cosmphi_Rphideriv_fails",
    "Verif.C54_Cosmphi_value",
    "Verif.C54_Cosmphi_r1_fails",
    "Verif.C54_Cosmphi_cpsp_partial",
    "Verif.C54_Cosmphi_cpsp_fails",
    "Verif.C54_Cosmphi_C",
    "Verif.C54_Lopsided",
    "Verif.C54_Lopsided_r1_fails",
    "Verif.C54_DehnenBar_value",
    "Verif.C54_DehnenBar_default_growth",
    "Verif.C54_DehnenBar_retrograde_fails",
    "Verif.C54_DehnenBar_resonances",
    "Verif.C54_DehnenBar_array",
    "Verif.C54_DehnenBar_array_axis_fails"
   ],
   "note": "All classes proved except: CosmphiDisk mixed derivative inside the break radius for m != 1 (wrong by a factor m, proved), normalisation radius with a break radius (discontinuous, proved), cp/sp with cp<0 and m>=2 (sign flipped, proved), LopsidedDisk ignores r1 (proved), retrograde patterns grow at the wrong time (proved), bar on-axis array path (proved)."
  },
  {
   "property": "C55",
   "status": "partial",
   "theorems": [
    "Verif.C55_inverse",
    "Verif.C55_zvec",
    "Verif.C55_inclination",
    "Verif.C55_small_inclination",
    "Verif.C55_upside_down_fails",
    "Verif.C55_opposite_axis_fails",
    "Verif.C55_no_galaxy_pa_fails",
    "Verif.C55_integer_axis_fails",
    "Verif.C55_sky_pa_fails",
    "Verif.C55_caller_fails",
    "Verif.C55_value",
    "Verif.C55_derivatives",
    "Verif.C55_force",
    "Verif.C55_poisson",
    "Verif.C55_C_calls",
    "Verif.C55_C_first_call_fails"
   ],
   "note": "RotateAndTiltWrapperPotential, Python and C: the matrix built from each accepted argument combination, value, forces, second derivatives, density and the C cache. The matrix is a rotation taking the requested axis to z and the wrapped potential is evaluated at the documented point (offset applied in the rotated frame), forces and second derivatives are those of the wrapped potential turned back, and Poisson's equation is inherited. Missing: the claim is false for inclination 180 degrees and for an axis opposite to z (mirror image), inclination without galaxy_pa and integer axes raise, sky_pa alone is ignored, the caller's array is modified, a first C call at the origin at t=0 returns 0; all proved as _fails theorems."
  },
  {
   "property": "C56",
   "status": "partial",
   "theorems": [
    "Verif.C56_force",
    "Verif.C56_inertial",
    "Verif.C56_cache",
    "Verif.C56_C_force",
    "Verif.C56_C_calls",
    "Verif.C56_C_first_call_fails",
    "Verif.C56_C_splines",
    "Verif.C56_jacobian",
    "Verif.C56_volume",
    "Verif.C56_derived_partial",
    "Verif.C56_derived_quadratic",
    "Verif.C56_offset_fails",
    "Verif.C56_list_fails",
    "Verif.C56_rejects"
   ],
   "note": "NonInertialFrameForce, Python and C: every branch of constructor and evaluation. The force equals the fictitious acceleration of a general rotating and accelerating frame (proved against the second derivative of the transformed motion), the Python cache and the C cache are transparent, the C Jacobian is the derivative of the force. Missing: without a supplied Omegadot the code differentiates numerically, so exactness is only proved for Omega of degree two or less with an error term otherwise; first C call at the origin and two argument combinations disagree (_fails)."
  },
  {
   "property": "C57",
   "status": "partial",
   "theorems": [
    "Verif.C57_tdyn_partial",
    "Verif.C57_period",
    "Verif.C57_fails"
   ],
   "note": "The time argument of tdyn is dropped: C57_fails gives a growing Plummer sphere whose dynamical time at t=1 is that of t=0. C57_tdyn_partial: right whenever the mass at t equals the mass at 0; C57_period: for spherical potentials it is the circular period."
  },
  {
   "property": "C58",
   "status": "partial",
   "theorems": [
    "Verif.C58_profile",
    "Verif.C58_profile_even",
    "Verif.C58_curve",
    "Verif.C58_dehnen",
    "Verif.C58_shu",
    "Verif.C58_schwarzschild",
    "Verif.C58_shu_retrograde_partial",
    "Verif.C58_shu_retrograde_fails",
    "Verif.C58_dehnen_derivatives",
    "Verif.C58_shu_derivatives",
    "Verif.C58_boltzmann",
    "Verif.C58_steady",
    "Verif.C58_schwarzschild_derivatives_partial",
    "Verif.C58_schwarzschild_derivatives_fails",
    "Verif.C58_schwarzschild_vT_fails",
    "Verif.C58_vtmax",
    "Verif.C58_vtmax_shu_fails",
    "Verif.C58_moments",
    "Verif.C58_oort_symmetry",
    "Verif.C58_central",
    "Verif.C58_oort"
   ],
   "note": "Exponential profile, rotation curve, closed forms of the three DFs, logarithmic derivatives (Dehnen, Shu), Boltzmann equation, constancy along orbits, moments, central moments and Oort constants are proved. Missing: counter-rotating orbits of the Shu DF when beta is not zero, derivatives of the Schwarzschild DF and the peak equation for the Shu DF, each refuted by a _fails theorem."
  },
  {
   "property": "C59",
   "status": "partial",
   "theorems": [
    "Verif.C59_densderivs_PowerSphCut",
    "Verif.C59_rforce_jax_PowerSphCut",
    "Verif.C59_point",
    "Verif.C59_moment_general",
    "Verif.C59_isotropic_moment",
    "Verif.C59_odd_tangential_fails",
    "Verif.C59_constantbeta_moment",
    "Verif.C59_osipkovmerritt_moment",
    "Verif.C59_isotropic_beta",
    "Verif.C59_constantbeta_beta",
    "Verif.C59_osipkovmerritt_beta",
    "Verif.C59_orbits_fails",
    "Verif.C59_orbit",
    "Verif.C59_constantbeta_half",
    "Verif.C59_constantbeta",
    "Verif.C59_constantbeta_half_jeans",
    "Verif.C59_constantbeta_jeans",
    "Verif.C59_rforce_jax",
    "Verif.C59_plummer",
    "Verif.C59_plummer_sign",
    "Verif.C59_powerlaw",
    "Verif.C59_powerlaw_beta",
    "Verif.C59_hernquist_half",
    "Verif.C59_hernquist_minus_half",
    "Verif.C59_densderivs_plummer",
    "Verif.C59_densderivs_powerspherical",
    "Verif.C59_densderivs_twopower",
    "Verif.C59_densderivs_classes",
    "Verif.C59_eddington_formula",
    "Verif.C59_eddington",
    "Verif.C59_eddington_jeans",
    "Verif.C59_hernquist_om_eddington",
    "Verif.C59_hernquist_om",
    "Verif.C59_hernquist_eddington",
    "Verif.C59_hernquist",
    "Verif.C59_hernquist_constantbeta",
    "Verif.C59_hernquist_constantbeta_half",
    "Verif.C59_hernquist_closed_forms",
    "Verif.C59_hernquist_beta",
    "Verif.C59_augmented_derivs",
    "Verif.C59_osipkovmerritt",
    "Verif.C59_composite_fails"
   ],
   "note": "Proved: the moment methods are the documented velocity integrals (all orders except odd tangential, where they fail); anisotropy; density recovery by Eddington inversion, Osipkov-Merritt inversion and the constant-anisotropy inversion for every anisotropy below one, with the Jeans equation, for any halo meeting stated regularity; the closed forms for Plummer, Hernquist (isotropic, Osipkov-Merritt and every constant anisotropy, including the hypergeometric branch) and power laws. Missing: numerical error of quadrature and interpolation; the cut at a finite rmax (the density is then not recovered); NFW closed form (King's model is C91)."
  },
  {
   "property": "C60",
   "status": "partial",
   "theorems": [
    "Verif.C60_accepts_iff",
    "Verif.C60_divisor",
    "Verif.C60_zero_multiple_fails",
    "Verif.C60_single_time_fails",
    "Verif.C60_evenly_spaced_fails",
    "Verif.C60_evenly_spaced_partial",
    "Verif.C60_auto_grid",
    "Verif.C60_auto_ends",
    "Verif.C60_auto_defined",
    "Verif.C60_auto_accepted"
   ],
   "note": "Exact acceptance criterion of the dt check and closed form of the automatic grid. The full property fails: the multiple may be zero (C60_zero_multiple_fails), one output time raises, and the evenly-spaced check has an absolute tolerance (C60_evenly_spaced_fails)."
  },
  {
   "property": "C61",
   "status": "proved",
   "theorems": [
    "Verif.C61_get",
    "Verif.C61_slice",
    "Verif.C61_set"
   ],
   "note": "All reachable combinations, all indices and slice bounds (step 1)."
  },
  {
   "property": "C62",
   "status": "partial",
   "theorems": [
    "Verif.C62_DiskExpansion",
    "Verif.C62_Ellipsoidal",
    "Verif.C62_TwoPowerTriaxial",
    "Verif.C62_PerfectEllipsoid_partial",
    "Verif.C62_PerfectEllipsoid_fails",
    "Verif.C62_Ferrers",
    "Verif.C62_SCF",
    "Verif.C62_shell",
    "Verif.C62_ball",
    "Verif.C62_cylinder",
    "Verif.C62_surfdens",
    "Verif.C62_surfdens_routes",
    "Verif.C62_composite_mass",
    "Verif.C62_nonaxi",
    "Verif.C62_dens",
    "Verif.C62_dens_composite",
    "Verif.C62_Plummer_surfdens",
    "Verif.C62_Isochrone_surfdens",
    "Verif.C62_NFW_surfdens",
    "Verif.C62_Hernquist_surfdens",
    "Verif.C62_Jaffe_surfdens",
    "Verif.C62_Burkert_surfdens",
    "Verif.C62_closed_forms",
    "Verif.C62_spherical",
    "Verif.C62_composite_ball",
    "Verif.C62_MiyamotoNagai",
    "Verif.C62_negative_z_fails",
    "Verif.C62_kuzmin_composite_fails",
    "Verif.C62_asymmetric_fails"
   ],
   "note": "Proved by the divergence theorem in three dimensions for every smooth axisymmetric potential (ball, shell, cylinder), the Poisson route of surfdens for every potential, the closed forms of six classes, combinations, refusal of non-axisymmetric potentials. Disagreements: closed forms change sign below the plane (C62_negative_z_fails), a combination with a razor-thin disk misses the disk by default (C62_kuzmin_composite_fails), mass(R,z) needs symmetry about the plane (C62_asymmetric_fails). quad is modelled as the exact integral; Masses of the ellipsoidal potentials are volume integrals over the ellipsoid, except PerfectEllipsoid with a different from 1, where the formula is wrong (C62_PerfectEllipsoid_fails). At r = a inside R < a the two-power closed forms are 0/0 and excluded. SCFPotential: mass(r) is the volume integral of dens over the ball for every coefficient array. DiskSCFPotential: the formula of the mass adds the volume integral of the pair densities. TwoPowerTriaxialPotential: the mass for every inner slope below 3. dens: both routes, closed form and Laplacian over 4 pi, give the Laplacian over 4 pi, also for combinations (C62_dens, C62_dens_composite)."
  },
  {
   "property": "C63",
   "status": "partial",
   "theorems": [
    "Verif.C63_radius_plummer",
    "Verif.C63_radius_hernquist",
    "Verif.C63_radius_powerlaw",
    "Verif.C63_radius_table",
    "Verif.C63_position_angles",
    "Verif.C63_eta_isotropic",
    "Verif.C63_eta_constantbeta_table",
    "Verif.C63_eta_constantbeta",
    "Verif.C63_eta_osipkovmerritt",
    "Verif.C63_speed_isotropic",
    "Verif.C63_speed_constantbeta",
    "Verif.C63_speed_osipkovmerritt_scaled",
    "Verif.C63_speed_osipkovmerritt",
    "Verif.C63_point",
    "Verif.C63_call",
    "Verif.C63_at",
    "Verif.C63_rmin_fails",
    "Verif.C63_lone_azimuth_fails"
   ],
   "note": "Proved: the exact law of the radii (Plummer, Hernquist, power laws; tabulated profiles at every tabulated radius), of the position angles, of the velocity angle of all three families, of the speeds given a speed table inverted exactly, and the geometry of the returned point. Fails as stated: rmin= is ignored by classes with an analytic inverse mass profile, phi= without R and z is ignored. Missing: the error of the two-dimensional interpolation table of speeds and of the tabulated inverse of the velocity angle; the joint law is proved factor by factor, independence of the random numbers is assumed."
  },
  {
   "property": "C64",
   "status": "partial",
   "theorems": [
    "Verif.C64_psi",
    "Verif.C64_Ellipsoidal",
    "Verif.C64_TwoPower",
    "Verif.C64_TwoPowerTriaxial_fails"
   ],
   "note": "Proved for the ellipsoidal classes with closed forms, for TwoPowerTriaxialPotential with inner slopes 1 and 2, and for the spherical two-power potentials with outer slope above 3 or the NFW slopes. Fails for TwoPowerTriaxialPotential with every other inner slope below 2: the constant has Gamma(3-alpha) for Gamma(2-alpha) and the value tends to a constant other than zero (C64_TwoPowerTriaxial_fails). Not covered: inner slopes between 2 and 3, spherical outer slopes up to 3 other than NFW."
  },
  {
   "property": "C65",
   "status": "partial",
   "theorems": [
    "Verif.C65_newton",
    "Verif.C65_newton_x",
    "Verif.C65_newton_y",
    "Verif.C65_complete",
    "Verif.C65_start",
    "Verif.C65_row",
    "Verif.C65_C_equations",
    "Verif.C65_C_coordinates",
    "Verif.C65_start_x",
    "Verif.C65_row_x",
    "Verif.C65_start_y",
    "Verif.C65_row_y",
    "Verif.C65_C_equations_x",
    "Verif.C65_C_equations_y",
    "Verif.C65_C_coordinates_planar",
    "Verif.C65_section_partial",
    "Verif.C65_section_on",
    "Verif.C65_along",
    "Verif.C65_time_fails",
    "Verif.C65_times_fails",
    "Verif.C65_initial_fails",
    "Verif.C65_company_fails",
    "Verif.C65_scalar_t0_fails",
    "Verif.C65_brute_sound",
    "Verif.C65_brute_complete_partial",
    "Verif.C65_brute_fails"
   ],
   "note": "Proved: the angle equations (three-dimensional and both planar surfaces) are Newton's equations with a change of parameter, conversely every turning orbit is a solution and its upward crossings are exactly the multiples of 2 pi; coordinates, C equations; the section driver with an exact integrator and a force independent of time returns all crossings in order; brute-force crossings sound and complete between columns. Missing (and false, see the _fails theorems): time-dependent forces, stored times, independence of the other orbits, initial condition within 1e-7 of the surface, scalar t0 with several orbits in Python, columns exactly on the surface. Numerical integration itself is an assumption (exact integrator)."
  },
  {
   "property": "C66",
   "status": "partial",
   "theorems": [
    "Verif.C66_degree",
    "Verif.C66_radians",
    "Verif.C66_sky_round_trip",
    "Verif.C66_sky_round_trip_galactic",
    "Verif.C66_lbd_round_trip",
    "Verif.C66_keyword_fails",
    "Verif.C66_position_fails"
   ],
   "note": "Proved for arguments given by position and the flag by keyword, with the round trips. C66_keyword_fails and C66_position_fails: angles given by keyword are not converted, and the flag given by position is ignored."
  },
  {
   "property": "C67",
   "status": "partial",
   "theorems": [
    "Verif.C67_pm",
    "Verif.C67_galcencyl",
    "Verif.C67_dvrpmllbb",
    "Verif.C67_galcenrect_partial",
    "Verif.C67_galcenrect_fails",
    "Verif.C67_galcencyl_fails"
   ],
   "note": "Proper motions, cylindrical components and the propagation from distance or parallax are proved. cov_vxyz_to_galcenrect leaves out the reflection of the axes: C67_galcenrect_fails for every position of the sun, C67_galcencyl_fails; C67_galcenrect_partial gives the variances that are right."
  },
  {
   "property": "C68",
   "status": "proved",
   "theorems": [
    "Verif.C68_dl_to_rphi",
    "Verif.C68_rphi_to_dl",
    "Verif.C68_round_trip",
    "Verif.C68_round_trip_inverse"
   ],
   "note": "Both directions and both round trips."
  },
  {
   "property": "C69",
   "status": "partial",
   "theorems": [
    "Verif.C69_potential_inputs_partial",
    "Verif.C69_velocity_fails",
    "Verif.C69_positional_fails",
    "Verif.C69_outputs",
    "Verif.C69_inverse_outputs",
    "Verif.C69_unchanged",
    "Verif.C69_array_fails",
    "Verif.C69_inputs"
   ],
   "note": "Inputs of potentials (velocity with unit only when t or M is given: C69_velocity_fails; quantities as positional arguments only lengths: C69_positional_fails), inputs and outputs of action-angle methods and their inverses (tuples; C69_array_fails shows one-dimensional arrays of more than three actions raise IndexError)."
  },
  {
   "property": "C70",
   "status": "partial",
   "theorems": [
    "Verif.C70_KuzminLike",
    "Verif.C70_KuzminLike_Kepler",
    "Verif.C70_CylSep",
    "Verif.C70_CylSep_static_partial",
    "Verif.C70_CylSep_time_fails",
    "Verif.C70_CylSep_C",
    "Verif.C70_KuzminLike_C",
    "Verif.C70_KuzminLike_C_planar",
    "Verif.C70_KuzminLike_units_partial",
    "Verif.C70_KuzminLike_units_fails"
   ],
   "note": "Transformation, derivatives, Poisson density, C agreement and the identity with Miyamoto-Nagai proved for every wrapped potential. The code contradicts the property in two ways: KuzminLike second derivatives mix physical and internal units when the wrapped potential has scales set, and CylindricallySeparable ignores the time."
  },
  {
   "property": "C71",
   "status": "partial",
   "theorems": [
    "Verif.C71_Ellipsoidal",
    "Verif.C71_Ferrers",
    "Verif.C71_PowerSphCut_C",
    "Verif.C71_SCF",
    "Verif.C71_SoftenedNeedle",
    "Verif.C71_SCF_C",
    "Verif.C71_Chandrasekhar",
    "Verif.C71_FDM"
   ],
   "note": "Proved for SoftenedNeedleBar, Ferrers, the ellipsoidal potentials and the two dynamical-friction forces (including their setters): induction over the sequence of calls with the invariant that what is remembered is right. The key of the memory (an md5 digest of the arguments) is modelled as the arguments themselves. Other classes with a memory are not covered yet. SCFPotential: force, Hessian and coefficient memory in Python and the memory of the C functions."
  },
  {
   "property": "C72",
   "status": "proved",
   "theorems": [
    "Verif.C72_normalize",
    "Verif.C72_vcirc",
    "Verif.C72_shape",
    "Verif.C72_last",
    "Verif.C72_composite",
    "Verif.C72_MWPotential2014",
    "Verif.C72_MWPotential2014_consistent"
   ],
   "note": "Every potential with nonzero force at R=1; lists by induction; MWPotential2014 and the old MWPotential with their actual parameters."
  },
  {
   "property": "C73",
   "status": "proved",
   "theorems": [
    "Verif.C73_rvir",
    "Verif.C73_rvir_range",
    "Verif.C73_initVir",
    "Verif.C73_initMax",
    "Verif.C73_rmax"
   ],
   "note": "brentq is modelled as an exact root finder; numbers in internal units."
  },
  {
   "property": "C74",
   "status": "partial",
   "theorems": [
    "Verif.C74_shape_partial",
    "Verif.C74_fails",
    "Verif.C74_rm2",
    "Verif.C74_rs",
    "Verif.C74_dn"
   ],
   "note": "Half-mass radius, slope and shape are proved; the amplitude is not the documented one with rs or rm2: C74_fails."
  },
  {
   "property": "C75",
   "status": "proved",
   "theorems": [
    "Verif.C75_jeans",
    "Verif.C75_unique",
    "Verif.C75_constant",
    "Verif.C75_los",
    "Verif.C75_force",
    "Verif.C75_logHalo",
    "Verif.C75_isothermal"
   ],
   "note": "jeans.py sigmar and sigmalos with the integrals as the Lebesgue integrals that scipy's quad approximates. Hypotheses (Tracer): positive continuous density, continuous anisotropy and force, convergent integral; shown to hold for the logarithmic halo, where the dispersion is found in closed form."
  },
  {
   "property": "C76",
   "status": "partial",
   "theorems": [
    "Verif.C76_drag",
    "Verif.C76_inside",
    "Verif.C76_pickle_partial",
    "Verif.C76_pickle_fails",
    "Verif.C76_FDM",
    "Verif.C76_FDM_continuous",
    "Verif.C76_jacobian",
    "Verif.C76_jacobian_FDM"
   ],
   "note": "Chandrasekhar and FDM friction in Python and C. Direction, size, FDM bound and continuity, history independence and the C Jacobians are proved. Partial: pickling (C76_pickle_partial; C76_pickle_fails shows the force beyond maxr changes when a dispersion function was given), and C agreement holds only up to maxr (C51_Chandrasekhar_partial, C51_FDM_partial, C51_Chandrasekhar_fails). The Jacobian is relative to the exact density gradient; the code uses a central difference."
  },
  {
   "property": "C77",
   "status": "partial",
   "theorems": [
    "Verif.C77_angles_partial",
    "Verif.C77_period",
    "Verif.C77_jr",
    "Verif.C77_ecc",
    "Verif.C77_agree",
    "Verif.C77_circular",
    "Verif.C77_vertical",
    "Verif.C77_harmonic",
    "Verif.C77_vertical_freqs_fails"
   ],
   "note": "Proved for spherical potentials: exactly one result, constant actions, constant frequencies and linear angles when the radial action is at least 1e-9, radial period, radial action as a time integral, pericentre/apocentre, agreement of the three entry points, circular orbits (vertical and azimuthal angles linear, radial angle fixed at pi). Excluded: polar orbits, the (meaningless) vertical angle of orbits in the plane with negative angular momentum, turning points outside the range of the searches or within 1e-15 of circular. One-dimensional potentials: complete for amplitudes up to 50, where actionsFreqs (not actionsFreqsAngles) has a frequency that is off because of its guard (C77_vertical_freqs_fails). Quadratures are exact integrals, brentq returns an exact zero."
  },
  {
   "property": "C78",
   "status": "partial",
   "theorems": [
    "Verif.C78_angles_partial",
    "Verif.C78_actions_partial",
    "Verif.C78_I3",
    "Verif.C78_u0",
    "Verif.C78_ecc_partial",
    "Verif.C78_delta",
    "Verif.C78_below_fails",
    "Verif.C78_KuzminKutuzov",
    "Verif.C78_KuzminKutuzov_delta"
   ],
   "note": "Proved for all Staeckel potentials symmetric about the plane and all bound orbits with simple turning points: actions are the loop integrals, actions and frequencies constant, angles linear, independence of u0, agreement of the entry points, conserved third integral, bounds of EccZmaxRperiRap, recovery of the focal distance, and that KuzminKutuzovStaeckelPotential is such a potential. Left out: points whose momenta are non-zero but within the tolerances (1e-7, 1e-10) of the turning-point searches, orbits closer to circular or planar than the thresholds of the code, fixed-order quadrature, the C version and the frozen-u0 options. The Python version raises an exception at the turning point below the plane (C78_below_fails)."
  },
  {
   "property": "C79",
   "status": "partial",
   "theorems": [
    "Verif.C79_SpiralArms_partial",
    "Verif.C79_SpiralArms_fails"
   ],
   "note": "Modelled for SpiralArmsPotential (the bar: C54_DehnenBar_array): elementwise whenever R or z is an array; an array of azimuths at a single R and z is summed over (proved, C79_SpiralArms_fails). Other classes have no explicit array code or are not covered."
  },
  {
   "property": "C80",
   "status": "proved",
   "theorems": [
    "Verif.C80_MovingObject_centred"
   ],
   "note": "For all kernels symmetric about their plane; gradient, Hessian, Poisson and C versions are C01/C02/C03/C51_MovingObject."
  },
  {
   "property": "C81",
   "status": "partial",
   "theorems": [
    "Verif.C81_plummer_curvedstream",
    "Verif.C81_plummer_perpendicular",
    "Verif.C81_hernquist_curvedstream_partial",
    "Verif.C81_plummer_partial",
    "Verif.C81_hernquist_partial",
    "Verif.C81_general_curvedstream",
    "Verif.C81_general_partial",
    "Verif.C81_general_is_plummer",
    "Verif.C81_plummerstream_partial",
    "Verif.C81_plummer_parallel_fails",
    "Verif.C81_plummer_antiparallel_fails",
    "Verif.C81_integer_velocity_fails",
    "Verif.C81_hernquist_scale_fails"
   ],
   "note": "Curved streams: proved for Plummer and for every radial force law (general version, exact quadrature), and for Hernquist unless the closest distance is zero or the scale radius (division by zero in the code). Straight streams: proved for stream directions off the y axis by more than the tolerance of the rotation, or along it, and perturber velocities not parallel to the stream. Disagreements proved: parallel velocities give a kick too large by sqrt 2, a stream along -y gets the kick with the wrong sign, integer stream velocities give truncated kicks."
  },
  {
   "property": "C82",
   "status": "partial",
   "theorems": [
    "Verif.C82_setup",
    "Verif.C82_update",
    "Verif.C82_history",
    "Verif.C82_candidate",
    "Verif.C82_candidate_density",
    "Verif.C82_upper",
    "Verif.C82_ars",
    "Verif.C82_distribution_partial",
    "Verif.C82_streamdf",
    "Verif.C82_diskdf_partial",
    "Verif.C82_peak_fails",
    "Verif.C82_corrected_fails",
    "Verif.C82_lower_fails",
    "Verif.C82_distribution_fails"
   ],
   "note": "Proved for all histories of updates: hull areas, independence of the order of updates, candidates have exactly the density of the hull, samples stay in the domain, acceptance never exceeds one; exact distribution with two abscissae. With three or more abscissae the code contradicts the property (evaluate_hull compares with the tangent of the wrong abscissa and uses an extrapolated chord): C82_distribution_fails, C82_lower_fails. Also refuted: starting abscissa at the peak (division by zero), and correct=True hands over a derivative that does not belong to the function. Random numbers are real numbers strictly between 0 and 1; termination of the rejection loop (probability one) is not modelled."
  },
  {
   "property": "C83",
   "status": "partial",
   "theorems": [
    "Verif.C83_single",
    "Verif.C83_steady",
    "Verif.C83_log",
    "Verif.C83_list_odeint_partial",
    "Verif.C83_list_c_partial",
    "Verif.C83_list_c_fails",
    "Verif.C83_list_time_fails",
    "Verif.C83_list_first_fails",
    "Verif.C83_deriv"
   ],
   "note": "One time, steady states, log and derivatives are proved for every force with an exact integrator. Lists of times: with odeint for time-independent forces and lists that do not start with the initial time, with the other methods only for lists ending with it; the rest is false in the code (C83_list_c_fails, C83_list_time_fails, C83_list_first_fails). The accuracy of the numerical integration is not modelled."
  },
  {
   "property": "C84",
   "status": "proved",
   "theorems": [
    "Verif.C84_moments",
    "Verif.C84_dispersions",
    "Verif.C84_vertexdev",
    "Verif.C84_oort"
   ],
   "note": "Grids are arbitrary finite grids of values; that the values are those of the evolved density is C83. Hierarchical grids and the direct double quadrature are not modelled."
  },
  {
   "property": "C85",
   "status": "partial",
   "theorems": [
    "Verif.C85_disk_vperp",
    "Verif.C85_disk_vlos",
    "Verif.C85_evolved_vperp_partial",
    "Verif.C85_evolved_vlos_partial",
    "Verif.C85_evolved_time_fails"
   ],
   "note": "diskdf: proved for all inputs. evolveddiskdf: proved for the density at time 0, which the code always uses; for other times the statement is false (C85_evolved_time_fails). Unit conversion is not part of the model: the integrands call the distribution function with conversion on."
  },
  {
   "property": "C86",
   "status": "partial",
   "theorems": [
    "Verif.C86_density",
    "Verif.C86_mean",
    "Verif.C86_sigma",
    "Verif.C86_time",
    "Verif.C86_meantd_partial",
    "Verif.C86_meantd_fails",
    "Verif.C86_perp",
    "Verif.C86_sigangle_fails",
    "Verif.C86_smallest_fails",
    "Verif.C86_density_zero_fails"
   ],
   "note": "Proved for every parameter: density_par, meanOmega, sigOmega, ptdAngle, pangledAngle (normalisation and second moment), meanangledAngle = 0. meantdAngle and sigtdAngle proved for offsets above three dispersions, as mean over the frequencies within three dispersions (the code truncates there). Fails: meantdAngle below three dispersions (limits exchanged: averages over the complement), sigangledAngle when sigangle dominates (truncated at one dispersion), sigangledAngle(smallest=True) does not use the smallest eigenvalue, pOparapar at angle offset zero counts stars moving the other way."
  },
  {
   "property": "C87",
   "status": "partial",
   "theorems": [
    "Verif.C87_minOpar",
    "Verif.C87_density",
    "Verif.C87_mean",
    "Verif.C87_exact_fails",
    "Verif.C87_nokick",
    "Verif.C87_higher",
    "Verif.C87_higher_mean_fails"
   ],
   "note": "Proved for any number of equally spaced nodes (the linspace of the code): minOpar, density_par, meanOmega (both ways) are exact for the piecewise-linear kick; gaussxpolyInts moments and the higher-order density for every spline order; no kick gives the smooth model. Fails: higherorder=True in meanOmega has a sign error; density_par(approx=False) is larger by sqrt(2 pi). Not claimed: size of the error made by neglecting second-order terms for splines of order above one."
  },
  {
   "property": "C88",
   "status": "partial",
   "theorems": [
    "Verif.C88_spherical",
    "Verif.C88_axi_partial",
    "Verif.C88_axi_default",
    "Verif.C88_axi_fails",
    "Verif.C88_full_partial",
    "Verif.C88_twice",
    "Verif.C88_projection",
    "Verif.C88_nbody_symmetry",
    "Verif.C88_symmetry",
    "Verif.C88_batch_particles",
    "Verif.C88_batch_times"
   ],
   "note": "Proved with any Gauss-Legendre rules (which are shown to exist for every order): spherical expansions are recovered for every number of coefficients; axisymmetric and general ones where 4l+n+N+1 < 2K, which with the default order K covers L up to 4 for every N; recomputation is idempotent; particle and density coefficients are projections on the same basis functions; the symmetric functions agree with the general one; batching over particles and times is exact. Code disagrees (C88_axi_fails): with L = 5 and N >= 12 the default radial order is one too low and the last coefficient is not recovered. Not proved: the quadrature in azimuth, which is replaced by the exact integral; the detection of the number of arguments of the density; the projection of multipole expansions."
  },
  {
   "property": "C89",
   "status": "partial",
   "theorems": [
    "Verif.C89_error",
    "Verif.C89_exact_partial",
    "Verif.C89_exact3",
    "Verif.C89_parse",
    "Verif.C89_order"
   ],
   "note": "Exact for every list of pairs, target and point; the exactness with default orders for residuals in an axisymmetric expansion of at most four multipoles, for more multipoles the default radial order is too low (C88_axi_fails), with sufficient orders for general targets. Numerical error of the azimuthal quadrature is not modelled."
  },
  {
   "property": "C90",
   "status": "partial",
   "theorems": [
    "Verif.C90_call",
    "Verif.C90_log",
    "Verif.C90_norm",
    "Verif.C90_array_partial",
    "Verif.C90_array_fails",
    "Verif.C90_init_fails",
    "Verif.C90_moments",
    "Verif.C90_moments_adiabatic_partial",
    "Verif.C90_adiabatic_fails",
    "Verif.C90_means",
    "Verif.C90_sigmaT2",
    "Verif.C90_nsigma_fails",
    "Verif.C90_tilt",
    "Verif.C90_pv",
    "Verif.C90_pvv",
    "Verif.C90_mc_mean",
    "Verif.C90_mc_partial",
    "Verif.C90_mc_ratio",
    "Verif.C90_mc_fails",
    "Verif.C90_direct_partial",
    "Verif.C90_direct_fails",
    "Verif.C90_surfacemass_partial",
    "Verif.C90_surfacemass_fails",
    "Verif.C90_scale"
   ],
   "note": "Proved: value, logarithm, normalisation, convergence of moments, means, dispersions, tilt and all marginal distributions, Monte Carlo expectation, scale lengths. Shown to fail, with witnesses: adiabatic moments are a quarter of the integral, Monte Carlo moments lack (2 pi)^(3/2), direct integration covers a quarter of the range and gets the tangential dispersion wrong, arrays outside the grid of guiding radii, nsigma and zmax without effect, check of isochrone action-angle objects. Convergence is in the order of the Gauss-Legendre rules; the rules are assumed exact for polynomials of degree below twice the order."
  },
  {
   "property": "C91",
   "status": "partial",
   "theorems": [
    "Verif.C91_density",
    "Verif.C91_potential",
    "Verif.C91_selfconsistent",
    "Verif.C91_mass",
    "Verif.C91_totalmass",
    "Verif.C91_poisson",
    "Verif.C91_centre_fails",
    "Verif.C91_solution",
    "Verif.C91_king",
    "Verif.C91_scales"
   ],
   "note": "Proved: velocity integral of the distribution function, potential inside and outside, self-consistency (full velocity integral and the moment method), Poisson's equation, enclosed and total mass, scales, and that with an exact solver the two systems give one solution with the tabulated arrays as its values, for every central value above 1.5e-4. Shown to fail: the right-hand side at the centre is three times the second derivative of the regular solution. Missing: error of solve_ivp and of the splines, existence of the solution, sampling."
  },
  {
   "property": "C92",
   "status": "partial",
   "theorems": [
    "Verif.C92_series",
    "Verif.C92_total",
    "Verif.C92_centre",
    "Verif.C92_nfw",
    "Verif.C92_nfw_limit",
    "Verif.C92_from_nfw_partial",
    "Verif.C92_reachable",
    "Verif.C92_from_nfw_fails",
    "Verif.C92_derivs"
   ],
   "note": "Proved for all parameters: constructor, total mass, limits at the centre, comparison with and convergence to the NFW potential, derivatives of the density, existence and uniqueness of the truncation radius for every positive mass, the conversion for masses between 2.1e-6 and 100 amplitudes, error bound of the series near the centre. Missing: within 1e-3 min(a, rc) of the centre the series makes potential and force differ (C01_ExpTruncNFW_fails), bounded by C92_series; masses of 400 amplitudes and more raise although the documentation promises no upper limit (C92_from_nfw_fails). The exponential integral is its definition as an integral, the root finder any that returns a zero in its bracket."
  },
  {
   "property": "C93",
   "status": "proved",
   "theorems": [
    "Verif.C93_forces",
    "Verif.C93_second",
    "Verif.C93_mixed",
    "Verif.C93_limit",
    "Verif.C93_structure"
   ],
   "note": "All nine methods, with explicit constants, in real arithmetic: the rounding error, which grows as the step shrinks, is outside."
  },
  {
   "property": "C94",
   "status": "partial",
   "theorems": [
    "Verif.C94_separable_partial",
    "Verif.C94_ecc",
    "Verif.C94_effective_partial",
    "Verif.C94_circular_fails",
    "Verif.C94_turning_fails",
    "Verif.C94_gamma_fails"
   ],
   "note": "Separable potentials with gamma=0: everything for orbits whose turning points the searches find and that are not in the plane; radial angles and frequencies for radial actions of at least 1e-9. Other gamma: the radial action at every point with a radial velocity. Counterexamples with the default gamma=1: at a point without radial velocity that moves with the circular velocity the radial action is nought whatever the vertical action (C94_circular_fails); slightly slower and high enough, the pericentre is reported as nought (C94_turning_fails); two points with the same constants of motion of which one has actions and the other raises UnboundError (C94_gamma_fails)."
  },
  {
   "property": "C95",
   "status": "partial",
   "theorems": [
    "Verif.C95_force",
    "Verif.C95_second",
    "Verif.C95_plane",
    "Verif.C95_spheroid",
    "Verif.C95_point",
    "Verif.C95_fixed",
    "Verif.C95_staeckel",
    "Verif.C95_eps",
    "Verif.C95_c",
    "Verif.C95_planar_c",
    "Verif.C95_time_fails"
   ],
   "note": "Proved for the model: the forces and second derivatives are the derivatives of the value at every point off the axis if the constant 1e-12 is left out (C95_force, C95_second), and the constant changes them by terms bounded by it (C95_eps); in the plane, on the reference spheroid and at the reference point the value is the wrapped one (C95_plane, C95_spheroid, C95_point); potentials that separate are not changed (C95_fixed); the result is a Staeckel potential in the sense of C78 (C95_staeckel); C equals Python, in the plane too (C95_c, C95_planar_c). C95_time_fails: the time is not passed on to the wrapped potential. Not covered: points on the axis, agreement on the spheroid when it degenerates to the segment between the foci (u0=0), rounding."
  },
  {
   "property": "C96",
   "status": "partial",
   "theorems": [
    "Verif.C96_blumenthal",
    "Verif.C96_direction",
    "Verif.C96_gnedin",
    "Verif.C96_cautun",
    "Verif.C96_grid",
    "Verif.C96_force",
    "Verif.C96_amp_fails"
   ],
   "note": "Proved: the equations of the three methods have exactly one solution (C96_blumenthal, C96_gnedin, C96_cautun); conservation of radius times mass, order of the shells, mass carried by the shells, direction of the contraction, no change if the baryons follow the halo (C96_blumenthal, C96_direction, C96_gnedin), growth with the baryonic mass (C96_cautun); the grid and default arguments (C96_grid); forces at and beyond the grid and the value at infinity (C96_force). C96_amp_fails: the amplitude is not used. Not covered: convergence of scipy's fixed_point (its result is taken to be a fixed point), the spline between grid points other than that it interpolates, the virial radius, the mass functions of the potentials."
  },
  {
   "property": "C97",
   "status": "partial",
   "theorems": [
    "Verif.C97_density_partial",
    "Verif.C97_self",
    "Verif.C97_beta_partial",
    "Verif.C97_sign_partial",
    "Verif.C97_isotropic",
    "Verif.C97_negative_fails",
    "Verif.C97_diverges_fails",
    "Verif.C97_edge_fails"
   ],
   "note": "Tracers with gamma > alpha/2 + 1: density (C97_density_partial), anisotropy (C97_beta_partial), sign (C97_sign_partial). A tracer that generates the potential satisfies this always (C97_self). Limit of large ra for all exponents (C97_isotropic). The constructor only asks for gamma > alpha/2: for 3 - alpha/2 < gamma < alpha/2 + 1 the distribution function is negative for small Q (C97_negative_fails) and its integral over velocity does not exist (C97_diverges_fails), for gamma = alpha/2 + 1 the density is too small (C97_edge_fails). Accepted tracers with gamma <= 3 - alpha/2 are not covered. Sampling of radii is in C63."
  },
  {
   "property": "C98",
   "status": "partial",
   "theorems": [
    "Verif.C98_fardal_partial",
    "Verif.C98_chen24_partial",
    "Verif.C98_retrograde_fails",
    "Verif.C98_retrograde_sign_fails",
    "Verif.C98_tide_fails",
    "Verif.C98_units_fails",
    "Verif.C98_output",
    "Verif.C98_mean",
    "Verif.C98_tails"
   ],
   "note": "Both rules in the frame of the orbit for every progenitor whose potential is the same along its direction as along the first axis (every spherical potential, every axisymmetric one in the plane), unless in a retrograde orbit in the plane; tails, means and output coordinates. False as stated: C98_tide_fails (flattened potential, inclined orbit: tidal radius and circular velocity are evaluated in the plane), C98_retrograde_fails and C98_retrograde_sign_fails (wrong signs for retrograde orbits in the plane), C98_units_fails (the vertical offset of fardal15spraydf is dimensionless). Not covered: orbits within 1e-10 of the plane but not in it, stripping_pdf, integration to the present."
  },
  {
   "property": "C99",
   "status": "partial",
   "theorems": [
    "Verif.C99_times_partial",
    "Verif.C99_gap_fails",
    "Verif.C99_raises"
   ],
   "note": "Range, and the exact fraction of random numbers giving earlier times (as a Lebesgue measure) at every time of the grid that does not end an interval without stripping; exceptions. False as stated: C99_gap_fails, for every function that vanishes on an interval of the grid before the last stripping, times inside the interval are drawn (numpy.unique keeps the first of tied values). The number of grid steps is arbitrary. Not covered: the detection of units, rounding."
  },
  {
   "property": "C100",
   "status": "partial",
   "theorems": [
    "Verif.C100_output",
    "Verif.C100_time",
    "Verif.C100_prefix",
    "Verif.C100_nmax_fails",
    "Verif.C100_linear_dense",
    "Verif.C100_error",
    "Verif.C100_linear",
    "Verif.C100_quadrature",
    "Verif.C100_dense",
    "Verif.C100_order_time",
    "Verif.C100_order"
   ],
   "note": "C100_output: rows, chain of accepted steps, error test, bound on the step, dense output and slopes at both ends, forwards and backwards, for every table of coefficients; C100_time: shift and reversal of time, pass by pass; C100_prefix: later times do not matter when hmax is given. With the coefficients of the file, as exact decimals: C100_quadrature, C100_dense (polynomials in time of degree 7, and 6 inside the steps), C100_linear, C100_linear_dense (the exponential to the 8th power, 7th inside the steps), C100_error (the estimates vanish for degrees 4 and 2). C100_order: eighth order for every analytic equation without explicit time, up to the rounding of the coefficients (all trees of up to 8 nodes to 1e-28). C100_order_time: the same for equations with explicit time, with 1e-12 for the rounding of the coefficients and nodes. Missing: the order of the rows inside steps for non-linear equations. False as stated: C100_nmax_fails, nmax is never looked at and a bounded right-hand side makes every step be rejected for ever. Real numbers for floats; a run that does not end has no rows."
  }
 ]
}